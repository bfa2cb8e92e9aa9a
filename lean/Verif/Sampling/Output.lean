import Verif.Sampling.Points

/-!
# C70: sampling output holds, for every variable and every point, the value at that point; C71: interpolation
-/

set_option linter.unusedSectionVars false

namespace AmrWind.Sampling

open Plane

/-! ## Columns -/

theorem fieldColumns_eq (fs : List (String × ℕ)) : ∀ scomp, (fieldColumns scomp fs).map Prod.snd =
    fs.flatMap (fun f => (List.range f.2).map fun ic => (f.1, ic)) ∧
    (fieldColumns scomp fs).map Prod.fst = (List.range (fs.map Prod.snd).sum).map (scomp + ·) := by
  induction fs with
  | nil => intro scomp; simp [fieldColumns]
  | cons f fs ih =>
    intro scomp
    obtain ⟨name, n⟩ := f
    have h := ih (scomp + n)
    constructor
    · simp only [fieldColumns, List.map_append, List.map_map, h.1, List.flatMap_cons]
      rfl
    · simp only [fieldColumns, List.map_append, List.map_map, h.2, List.map_cons, List.sum_cons]
      rw [List.range_add, List.map_append, List.map_map]
      congr 1
      refine List.map_congr_left fun a _ => ?_
      simp [Nat.add_assoc]

/-- C70: the columns written are `0, 1, …` in order, and column `iv` receives the component named by variable `iv`. -/
theorem columns_match (fields ints derived : List (String × ℕ)) :
    columns fields ints derived = (varNames fields ints derived).zipIdx.map fun v => (v.2, v.1) := by
  have hs : (columns fields ints derived).map Prod.snd = varNames fields ints derived := by
    simp only [columns, List.map_append, (fieldColumns_eq _ _).1, varNames, List.flatMap_append]
  have hf : (columns fields ints derived).map Prod.fst = List.range (columns fields ints derived).length := by
    have hl : ∀ (s : ℕ) (fs : List (String × ℕ)), (fieldColumns s fs).length = (fs.map Prod.snd).sum := by
      intro s fs
      have := congrArg List.length (fieldColumns_eq fs s).2
      simpa using this
    simp only [columns, List.map_append, (fieldColumns_eq _ _).2, List.length_append, hl]
    rw [List.range_add, List.range_add]
    simp
  apply List.ext_getElem?
  intro n
  have h1 : ((columns fields ints derived).map Prod.snd)[n]? = (varNames fields ints derived)[n]? := by rw [hs]
  have h2 : ((columns fields ints derived).map Prod.fst)[n]? = (List.range (columns fields ints derived).length)[n]? := by
    rw [hf]
  rw [List.getElem?_map] at h1 h2
  rw [List.getElem?_map, List.getElem?_zipIdx, ← h1]
  cases hc : (columns fields ints derived)[n]? with
  | none => simp
  | some c =>
    rw [hc] at h2
    have hn : n < (columns fields ints derived).length := (List.getElem?_eq_some_iff.mp hc).1
    rw [List.getElem?_range hn] at h2
    simp only [Option.map_some, Option.some.injEq] at h2
    simp only [Option.map_some, Nat.zero_add, ← h2]

/-! ## The buffer -/

section
variable {K : Type*} [Field K] [LinearOrder K] [IsStrictOrderedRing K] [FloorRing K]

theorem foldl_writes (ws : List (ℕ × K)) : (ws.map Prod.fst).Nodup → ∀ (b : ℕ → K) (k : ℕ),
    ws.foldl (fun b w => fun k => if k = w.1 then w.2 else b k) b k =
      if k ∈ ws.map Prod.fst then (ws.map fun w => if k = w.1 then w.2 else 0).sum else b k := by
  induction ws with
  | nil => intro _ b k; simp
  | cons w ws ih =>
    intro hnd b k
    simp only [List.map_cons, List.nodup_cons] at hnd
    rw [List.foldl_cons, ih hnd.2]
    simp only [List.map_cons, List.mem_cons, List.sum_cons]
    by_cases hk : k = w.1
    · have hnot : k ∉ ws.map Prod.fst := hk ▸ hnd.1
      have hz : (ws.map fun w => if k = w.1 then w.2 else 0).sum = 0 := by
        apply List.sum_eq_zero
        intro x hx
        obtain ⟨q, hq, rfl⟩ := List.mem_map.mp hx
        rw [if_neg]
        intro h
        exact hnot (List.mem_map.mpr ⟨q, hq, h.symm⟩)
      rw [if_neg hnot, if_pos hk, if_pos (Or.inl hk), hz, add_zero]
      simp [hk]
    · by_cases hm : k ∈ ws.map Prod.fst
      · rw [if_pos hm, if_pos (Or.inr hm)]
        simp [hk]
      · rw [if_neg hm, if_neg hk, if_neg (by simp only [hk, false_or]; exact hm)]

theorem foldl_writes_zero {ws : List (ℕ × K)} (h : (ws.map Prod.fst).Nodup) (k : ℕ) :
    ws.foldl (fun b w => fun k => if k = w.1 then w.2 else b k) (fun _ => (0 : K)) k =
      (ws.map fun w => if k = w.1 then w.2 else 0).sum := by
  rw [foldl_writes ws h]
  by_cases hm : k ∈ ws.map Prod.fst
  · rw [if_pos hm]
  · rw [if_neg hm]
    symm
    apply List.sum_eq_zero
    intro x hx
    obtain ⟨q, hq, rfl⟩ := List.mem_map.mp hx
    rw [if_neg]
    intro e
    exact hm (List.mem_map.mpr ⟨q, hq, e.symm⟩)

theorem rankWrites_nodup {nf N : ℕ} {val : ℕ → Pos K → K} {ps : List (Particle K)} (hu : (ps.map (·.uid)).Nodup)
    (hN : ∀ p ∈ ps, p.uid < N) : ((rankWrites nf N val ps).map Prod.fst).Nodup := by
  unfold rankWrites
  rw [List.map_flatMap, List.nodup_flatMap]
  refine ⟨fun fid _ => ?_, ?_⟩
  · rw [List.map_map]
    have : (Prod.fst ∘ fun p : Particle K => (fid * N + p.uid, val fid p.pos)) = (fid * N + ·) ∘ (·.uid) := rfl
    rw [this, ← List.map_map]
    exact hu.map fun a b h => by simpa using h
  · refine List.nodup_range.imp ?_
    intro a b hne x h1 h2
    simp only [List.map_map, List.mem_map, Function.comp] at h1 h2
    obtain ⟨p, hp, rfl⟩ := h1
    obtain ⟨q, hq, e⟩ := h2
    have h1 := hN p hp
    have h2 := hN q hq
    have ea : (a * N + p.uid) / N = a := by
      rw [Nat.mul_comm, Nat.mul_add_div (by omega), Nat.div_eq_of_lt h1, add_zero]
    have eb : (b * N + q.uid) / N = b := by
      rw [Nat.mul_comm, Nat.mul_add_div (by omega), Nat.div_eq_of_lt h2, add_zero]
    exact hne (by rw [← ea, ← eb, e])

/-- The contribution of a list of particles to entry `k`. -/
def contrib (nf N : ℕ) (val : ℕ → Pos K → K) (k : ℕ) (ps : List (Particle K)) : K :=
  (ps.map fun p => ((List.range nf).map fun fid => if k = fid * N + p.uid then val fid p.pos else 0).sum).sum

theorem sum_swap {α β : Type*} (l : List α) (m : List β) (f : α → β → K) :
    (l.map fun a => (m.map fun b => f a b).sum).sum = (m.map fun b => (l.map fun a => f a b).sum).sum := by
  induction l with
  | nil => simp
  | cons a l ih => simp only [List.map_cons, List.sum_cons, ih, List.sum_map_add]

theorem rankBuf_eq {nf N : ℕ} {val : ℕ → Pos K → K} {ps : List (Particle K)} (hu : (ps.map (·.uid)).Nodup)
    (hN : ∀ p ∈ ps, p.uid < N) (k : ℕ) : rankBuf nf N val ps k = contrib nf N val k ps := by
  unfold rankBuf
  rw [foldl_writes_zero (rankWrites_nodup hu hN)]
  unfold rankWrites contrib
  rw [sum_swap ps (List.range nf), List.map_flatMap, List.flatMap_def, List.sum_flatten, List.map_map]
  congr 1
  refine List.map_congr_left fun fid _ => ?_
  simp only [Function.comp_apply, List.map_map]
  rfl

theorem contrib_flatten (nf N : ℕ) (val : ℕ → Pos K → K) (k : ℕ) (ranks : List (List (Particle K))) :
    (ranks.map (contrib nf N val k)).sum = contrib nf N val k ranks.flatten := by
  induction ranks with
  | nil => simp [contrib]
  | cons r rs ih =>
    simp only [List.map_cons, List.sum_cons, ih, List.flatten_cons]
    unfold contrib
    rw [List.map_append, List.sum_append]

/-- The canonical list of particles: the points of all samplers in order, numbered. -/
theorem uid_of_samplers {g : Geo K} (hg : g.Ok) {boxes : List Bx} (hp : Partition g.dom boxes)
    {samplers : List (List (Pos K))} (hin : ∀ s ∈ samplers, ∀ p ∈ s, Inside g p) :
    ((boxes.flatMap (boxParticles g samplers)).map fun p => (p.pos, p.uid)).Perm samplers.flatten.zipIdx := by
  have h1 : (boxes.flatMap (boxParticles g samplers)).Perm
      (samplers.zipIdx.flatMap fun s => (boxes.flatMap fun b => located g b s.1).map fun p =>
        (⟨p.1, p.2 + ((samplers.take s.2).map List.length).sum, s.2, p.2⟩ : Particle K)) := by
    unfold boxParticles
    have : ∀ (l : List (List (Pos K) × ℕ)) (bs : List Bx) (F : List (Pos K) × ℕ → Pos K × ℕ → Particle K),
        (bs.flatMap fun b => l.flatMap fun s => (located g b s.1).map (F s)).Perm
          (l.flatMap fun s => (bs.flatMap fun b => located g b s.1).map (F s)) := by
      intro l bs F
      induction bs with
      | nil => simp
      | cons b bs ih =>
        simp only [List.flatMap_cons, List.map_append]
        refine (ih.append_left _).trans ?_
        exact (List.flatMap_append_perm l (fun s => (located g b s.1).map (F s))
          (fun s => (bs.flatMap fun b => located g b s.1).map (F s)))
    exact this _ _ _
  refine (h1.map _).trans ?_
  rw [List.map_flatMap]
  have h2 : ∀ s ∈ samplers.zipIdx, (((boxes.flatMap fun b => located g b s.1).map fun p =>
      (⟨p.1, p.2 + ((samplers.take s.2).map List.length).sum, s.2, p.2⟩ : Particle K)).map fun p =>
        (p.pos, p.uid)).Perm (s.1.zipIdx.map fun p => (p.1, p.2 + ((samplers.take s.2).map List.length).sum)) := by
    intro s hs
    rw [List.map_map]
    refine (each_point_one_box hg hp (hin s.1 ?_)).map _
    rw [List.mem_iff_getElem?]
    exact ⟨s.2, List.mem_zipIdx_iff_getElem?.mp hs⟩
  refine (List.Perm.flatMap_left _ h2).trans ?_
  have h3 : ∀ (ss pre : List (List (Pos K))), ((ss.zipIdx pre.length).flatMap fun s => s.1.zipIdx.map fun p =>
      (p.1, p.2 + (((pre ++ ss).take s.2).map List.length).sum)) =
        ss.flatten.zipIdx ((pre.map List.length).sum) := by
    intro ss
    induction ss with
    | nil => intro pre; simp
    | cons s ss ih =>
      intro pre
      have := ih (pre ++ [s])
      simp only [List.length_append, List.length_singleton, List.append_assoc, List.singleton_append, List.map_append,
        List.map_cons, List.map_nil, List.sum_append, List.sum_singleton] at this
      simp only [List.zipIdx_cons, List.flatMap_cons, this, List.flatten_cons, List.zipIdx_append]
      congr 1
      · simp only [List.take_left']
        apply List.ext_getElem?
        intro n
        rw [List.getElem?_map, List.getElem?_zipIdx, List.getElem?_zipIdx]
        cases s[n]? with
        | none => rfl
        | some a => simp [Nat.add_comm]
  have := h3 samplers []
  simp only [List.length_nil, List.nil_append, List.map_nil, List.sum_nil] at this
  rw [this]

/-- C70: when all points are inside the domain the particles are created without an abort, for every partition. -/
theorem particles_exist {g : Geo K} (hg : g.Ok) {boxes : List Bx} (hp : Partition g.dom boxes)
    {samplers : List (List (Pos K))} (hin : ∀ s ∈ samplers, ∀ p ∈ s, Inside g p) :
    (initParticles g samplers boxes).isSome := by
  have h := (uid_of_samplers hg hp hin).length_eq
  unfold initParticles
  simp only
  rw [if_pos]
  · rfl
  · rw [List.length_map, List.length_zipIdx, List.length_flatten] at h
    exact h.symm

/-- C70: every particle carries the number of its sampler and its number within the sampler. -/
theorem particle_ids {g : Geo K} {boxes : List Bx} {samplers : List (List (Pos K))} {ps : List (Particle K)}
    (h : initParticles g samplers boxes = some ps) :
    ∀ p ∈ ps, ∃ s, samplers[p.sid]? = some s ∧ s[p.nid]? = some p.pos ∧
      p.uid = p.nid + ((samplers.take p.sid).map List.length).sum := by
  unfold initParticles at h
  simp only at h
  by_cases hc : (samplers.map List.length).sum = (boxes.flatMap (boxParticles g samplers)).length
  · rw [if_pos hc] at h
    rw [← Option.some.inj h]
    intro p hp
    simp only [List.mem_flatMap, boxParticles, List.mem_map, located, List.mem_filter] at hp
    obtain ⟨b, -, s, hs, q, ⟨hq, -⟩, rfl⟩ := hp
    exact ⟨s.1, List.mem_zipIdx_iff_getElem?.mp hs, List.mem_zipIdx_iff_getElem?.mp hq, rfl⟩
  · rw [if_neg hc] at h; exact absurd h (by simp)

theorem contrib_canonical {nf N : ℕ} (val : ℕ → Pos K → K) {l : List (Pos K)} (hN : N = l.length) {fid u : ℕ}
    (hf : fid < nf) {p : Pos K} (hu : l[u]? = some p) :
    (l.zipIdx.map fun q => ((List.range nf).map fun f => if fid * N + u = f * N + q.2 then val f q.1 else 0).sum).sum =
      val fid p := by
  have hu' : u < N := hN ▸ (List.getElem?_eq_some_iff.mp hu).1
  have hq : ∀ q ∈ l.zipIdx, ((List.range nf).map fun f => if fid * N + u = f * N + q.2 then val f q.1 else 0).sum =
      if q.2 = u then val fid q.1 else 0 := by
    intro q hq
    have hq2 : q.2 < N := by
      rw [hN]; exact (List.getElem?_eq_some_iff.mp (List.mem_zipIdx_iff_getElem?.mp hq)).1
    have key : ∀ f, (fid * N + u = f * N + q.2) ↔ (f = fid ∧ q.2 = u) := by
      intro f
      constructor
      · intro e
        have e1 : (fid * N + u) / N = fid := by
          rw [Nat.mul_comm, Nat.mul_add_div (by omega), Nat.div_eq_of_lt hu', add_zero]
        have e2 : (f * N + q.2) / N = f := by
          rw [Nat.mul_comm, Nat.mul_add_div (by omega), Nat.div_eq_of_lt hq2, add_zero]
        have : f = fid := by rw [← e1, ← e2, e]
        subst this
        exact ⟨rfl, by omega⟩
      · rintro ⟨rfl, e⟩; rw [e]
    simp only [key]
    by_cases hqu : q.2 = u
    · simp only [hqu, and_true, if_true]
      have : ∀ n, fid < n → ((List.range n).map fun f => if f = fid then val f q.1 else 0).sum = val fid q.1 := by
        intro n
        induction n with
        | zero => intro h; omega
        | succ n ih =>
          intro h
          rw [List.range_succ, List.map_append, List.sum_append]
          by_cases hn : fid < n
          · rw [ih hn]; simp [show n ≠ fid by omega]
          · have hn' : n = fid := by omega
            subst hn'
            have : ((List.range n).map fun f => if f = n then val f q.1 else 0).sum = 0 := by
              apply List.sum_eq_zero
              intro x hx
              obtain ⟨f, hf, rfl⟩ := List.mem_map.mp hx
              rw [if_neg]
              have := List.mem_range.mp hf
              omega
            rw [this]; simp
      exact this nf hf
    · simp only [hqu, and_false, if_false]
      simp
  rw [List.map_congr_left hq]
  have main : ∀ (l : List (Pos K)) (s u : ℕ), l[u]? = some p →
      ((l.zipIdx s).map fun q => if q.2 = s + u then val fid q.1 else 0).sum = val fid p := by
    intro l
    induction l with
    | nil => intro s u h; simp at h
    | cons a l ih =>
      intro s u h
      rw [List.zipIdx_cons, List.map_cons, List.sum_cons]
      cases u with
      | zero =>
        have ha : a = p := by simpa using h
        have : ((l.zipIdx (s + 1)).map fun q => if q.2 = s + 0 then val fid q.1 else 0).sum = 0 := by
          apply List.sum_eq_zero
          intro x hx
          obtain ⟨q, hq, rfl⟩ := List.mem_map.mp hx
          have := (List.mem_zipIdx hq).1
          rw [if_neg (by omega)]
        rw [this, ha]; simp
      | succ u =>
        have h' : l[u]? = some p := by simpa using h
        have := ih (s + 1) u h'
        rw [show s + 1 + u = s + (u + 1) by omega] at this
        rw [this]
        simp
  simpa using main l 0 u hu

/-- C70: the buffer. For every partition of the domain, every distribution of the particles over any number of ranks,
every variable and every point, the entry of the buffer is the value of the variable at the point. -/
theorem buffer_correct {g : Geo K} (hg : g.Ok) {boxes : List Bx} (hp : Partition g.dom boxes)
    {samplers : List (List (Pos K))} (hin : ∀ s ∈ samplers, ∀ p ∈ s, Inside g p) {ps : List (Particle K)}
    (hps : initParticles g samplers boxes = some ps) {ranks : List (List (Particle K))} (hr : ranks.flatten.Perm ps)
    {nf : ℕ} (val : ℕ → Pos K → K) {fid u : ℕ} (hf : fid < nf) {p : Pos K} (hu : samplers.flatten[u]? = some p) :
    populateBuffer nf samplers.flatten.length val ranks (fid * samplers.flatten.length + u) = val fid p := by
  have hpe : ps = boxes.flatMap (boxParticles g samplers) := by
    unfold initParticles at hps
    simp only at hps
    by_cases hc : (samplers.map List.length).sum = (boxes.flatMap (boxParticles g samplers)).length
    · rw [if_pos hc] at hps; exact (Option.some.inj hps).symm
    · rw [if_neg hc] at hps; exact absurd hps (by simp)
  have hperm : (ranks.flatten.map fun p => (p.pos, p.uid)).Perm samplers.flatten.zipIdx :=
    (hr.map _).trans (hpe ▸ uid_of_samplers hg hp hin)
  set N := samplers.flatten.length with hN
  have huid : (ranks.flatten.map (·.uid)).Perm (List.range N) := by
    have := hperm.map Prod.snd
    rw [List.map_map, List.zipIdx_map_snd] at this
    rw [List.range_eq_range']
    exact this
  have hnd : (ranks.flatten.map (·.uid)).Nodup := huid.nodup_iff.mpr List.nodup_range
  have hlt : ∀ q ∈ ranks.flatten, q.uid < N := fun q hq =>
    List.mem_range.mp (huid.mem_iff.mp (List.mem_map.mpr ⟨q, hq, rfl⟩))
  unfold populateBuffer
  have hall : ranks.map (fun ps => rankBuf nf N val ps (fid * N + u)) =
      ranks.map (contrib nf N val (fid * N + u)) := by
    refine List.map_congr_left fun r hr' => ?_
    refine rankBuf_eq ?_ ?_ _
    · have : (r.map (·.uid)).Sublist (ranks.flatten.map (·.uid)) := (List.sublist_flatten_of_mem hr').map _
      exact hnd.sublist this
    · intro q hq
      exact hlt q (List.mem_flatten.mpr ⟨r, hr', hq⟩)
  rw [hall, contrib_flatten]
  unfold contrib
  have h1 := (hperm.map fun q : Pos K × ℕ =>
    ((List.range nf).map fun f => if fid * N + u = f * N + q.2 then val f q.1 else 0).sum).sum_eq
  rw [List.map_map] at h1
  exact h1.trans (contrib_canonical val hN hf hu)

/-! ## The file -/

theorem outputVar_length {buf : ℕ → K} {iv : ℕ} : ∀ (ss : List (Sampler K)) (o : ℕ),
    (∀ s ∈ ss, ∀ iv l, l.length = s.pts.length → (s.modify iv l).length = s.nout) →
    (outputVar buf iv o ss).length = (ss.map (·.nout)).sum
  | [], _, _ => by simp [outputVar]
  | s :: ss, o, h => by
    simp only [outputVar, List.length_append, List.map_cons, List.sum_cons]
    rw [h s (by simp) _ _ (by simp [slice]), outputVar_length ss _ fun q hq => h q (by simp [hq])]

theorem outputVar_slice {buf : ℕ → K} {iv : ℕ} : ∀ (ss : List (Sampler K)) (o s : ℕ) (q : Sampler K),
    (∀ s ∈ ss, ∀ iv l, l.length = s.pts.length → (s.modify iv l).length = s.nout) → ss[s]? = some q →
    ((outputVar buf iv o ss).drop ((ss.take s).map (·.nout)).sum).take q.nout =
      q.modify iv (slice buf (o + ((ss.take s).map (·.pts.length)).sum) q.pts.length)
  | [], _, s, q, _, hs => by simp at hs
  | a :: ss, o, 0, q, h, hs => by
    have : a = q := by simpa using hs
    subst this
    have hl := h a (by simp) iv (slice buf o a.pts.length) (by simp [slice])
    simp only [List.take_zero, List.map_nil, List.sum_nil, List.drop_zero, outputVar, add_zero]
    rw [List.take_append_of_le_length (by omega), List.take_of_length_le (by omega)]
  | a :: ss, o, s + 1, q, h, hs => by
    have hs' : ss[s]? = some q := by simpa using hs
    have hl := h a (by simp) iv (slice buf o a.pts.length) (by simp [slice])
    have ih := outputVar_slice (buf := buf) (iv := iv) ss (o + a.pts.length) s q (fun r hr => h r (by simp [hr])) hs'
    simp only [List.take_succ_cons, List.map_cons, List.sum_cons, outputVar]
    rw [← List.drop_drop]
    rw [show a.nout = (a.modify iv (slice buf o a.pts.length)).length from hl.symm, List.drop_left, ih, Nat.add_assoc]

/-- C70: the file. If `modify_sample_data` returns as many values as the sampler announces, the values written for
variable `iv` of sampler `s` are the values of that variable at the points of that sampler, in order (as modified by the
sampler), for every partition, every distribution over ranks and every list of samplers. -/
theorem file_correct {g : Geo K} (hg : g.Ok) {boxes : List Bx} (hp : Partition g.dom boxes) {ss : List (Sampler K)}
    (hin : ∀ s ∈ ss, ∀ p ∈ s.pts, Inside g p) (hmod : ∀ s ∈ ss, ∀ iv l, l.length = s.pts.length → (s.modify iv l).length = s.nout)
    {ps : List (Particle K)} (hps : initParticles g (ss.map (·.pts)) boxes = some ps)
    {ranks : List (List (Particle K))} (hr : ranks.flatten.Perm ps) {nvars : ℕ} (val : ℕ → Pos K → K) {iv s : ℕ}
    (hiv : iv < nvars) {q : Sampler K} (hs : ss[s]? = some q) :
    let N := (ss.map (·.pts)).flatten.length
    netcdfVar nvars (outputBuf nvars N (populateBuffer nvars N val ranks) ss) ss iv s =
      some (q.modify iv (q.pts.map (val iv))) := by
  intro N
  set buf := populateBuffer nvars N val ranks with hbuf
  have hM : ∀ iv, (outputVar buf iv (iv * N) ss).length = (ss.map (·.nout)).sum := fun iv =>
    outputVar_length ss _ hmod
  have hlen : (outputBuf nvars N buf ss).length = nvars * (ss.map (·.nout)).sum := by
    unfold outputBuf
    rw [List.length_flatMap]
    simp [hM]
  have hdiv : (outputBuf nvars N buf ss).length / nvars = (ss.map (·.nout)).sum := by
    rw [hlen, Nat.mul_div_cancel_left _ (by omega)]
  unfold netcdfVar
  rw [hs, Option.map_some, hdiv]
  set M := (ss.map (·.nout)).sum with hMdef
  have hsplit : outputBuf nvars N buf ss = ((List.range iv).flatMap fun i => outputVar buf i (i * N) ss) ++
      (outputVar buf iv (iv * N) ss ++
        ((List.range (nvars - iv - 1)).map (iv + 1 + ·)).flatMap fun i => outputVar buf i (i * N) ss) := by
    unfold outputBuf
    conv_lhs => rw [show nvars = iv + 1 + (nvars - iv - 1) by omega]
    rw [List.range_add, List.range_succ, List.flatMap_append, List.flatMap_append]
    simp [List.append_assoc]
  have hpre : ((List.range iv).flatMap fun i => outputVar buf i (i * N) ss).length = iv * M := by
    rw [List.length_flatMap]
    simp [hM]
  have hlt : s < ss.length := (List.getElem?_eq_some_iff.mp hs).1
  have hsum : ((ss.take s).map (·.nout)).sum + q.nout ≤ M := by
    have hq : ss[s] = q := (List.getElem?_eq_some_iff.mp hs).2
    have e : ss = ss.take s ++ q :: ss.drop (s + 1) := by
      rw [← hq, List.cons_getElem_drop_succ, List.take_append_drop]
    rw [hMdef]
    conv_rhs => rw [e]
    rw [List.map_append, List.sum_append, List.map_cons, List.sum_cons]
    omega
  rw [hsplit, ← List.drop_drop, show iv * M = _ from hpre.symm, List.drop_left]
  rw [List.drop_append_of_le_length (by rw [hM]; omega), List.take_append_of_le_length (by
    rw [List.length_drop, hM]; omega)]
  rw [outputVar_slice ss (iv * N) s q hmod hs]
  congr 2
  unfold slice
  apply List.ext_getElem?
  intro n
  rw [List.getElem?_map, List.getElem?_map]
  by_cases hn : n < q.pts.length
  · rw [List.getElem?_range hn, Option.map_some, List.getElem?_eq_getElem hn, Option.map_some]
    congr 1
    rw [Nat.add_assoc]
    refine buffer_correct hg hp ?_ hps hr val hiv ?_
    · intro s' hs' p hp'
      obtain ⟨r, hr', rfl⟩ := List.mem_map.mp hs'
      exact hin r hr' p hp'
    · have main : ∀ (ss : List (Sampler K)) (s : ℕ), ss[s]? = some q →
          ((ss.map (·.pts)).flatten)[((ss.take s).map (·.pts.length)).sum + n]? = some q.pts[n] := by
        intro ss
        induction ss with
        | nil => intro s h; simp at h
        | cons a ss ih =>
          intro s h
          cases s with
          | zero =>
            have : a = q := by simpa using h
            subst this
            simp only [List.take_zero, List.map_nil, List.sum_nil, Nat.zero_add, List.map_cons, List.flatten_cons]
            rw [List.getElem?_append_left hn, List.getElem?_eq_getElem hn]
          | succ s =>
            simp only [List.take_succ_cons, List.map_cons, List.sum_cons, List.flatten_cons]
            rw [Nat.add_assoc, List.getElem?_append_right (by omega), Nat.add_sub_cancel_left]
            exact ih s (by simpa using h)
      exact main ss s hs
  · rw [List.getElem?_eq_none (by simpa using hn), List.getElem?_eq_none (by simpa using hn)]
    rfl

end

/-- C70, a disagreement: in the NetCDF format the three velocity components must be sampled, even if no sampler needs
them; otherwise the run stops. -/
theorem netcdf_needs_velocity (names : List String) :
    (losVelocity names).isSome ↔ "velocityx" ∈ names ∧ "velocityy" ∈ names ∧ "velocityz" ∈ names := by
  unfold losVelocity
  by_cases h1 : "velocityx" ∈ names <;> by_cases h2 : "velocityy" ∈ names <;> by_cases h3 : "velocityz" ∈ names <;>
    simp [h1, h2, h3]

example : losVelocity ["temperature"] = none ∧ losVelocity ["p", "velocityx", "velocityy", "velocityz"] = some [1, 2, 3] :=
  by decide +kernel

/-- Two samplers with two points and one point; the second sampler doubles the values. -/
def exSamplers : List (Sampler ℚ) :=
  [⟨[fun _ => 3 / 2, fun d => if d = .x then 3 else 1 / 2], fun _ l => l, 2⟩, ⟨[fun _ => 1], fun _ l => l.map (2 * ·), 1⟩]

theorem exSamplers_inside : ∀ s ∈ exSamplers, ∀ p ∈ s.pts, Inside exGeo p := by
  intro s hs p hp
  have : exSamplers.all (fun s => s.pts.all (inDomain exGeo)) = true := by decide +kernel
  exact inDomain_iff.mp (List.all_eq_true.mp (List.all_eq_true.mp this s hs) p hp)

/-- Three ranks, one of them without particles: the file is right for two variables, `x` and `x + y`. -/
example : (initParticles exGeo (exSamplers.map (·.pts)) exBoxes).any (fun ps =>
    let out := outputBuf 2 3 (populateBuffer 2 3 (fun iv p => if iv = 0 then p .x else p .x + p .y)
      [ps.drop 1, [], ps.take 1]) exSamplers
    decide (netcdfVar 2 out exSamplers 0 0 = some [3 / 2, 3]) && decide (netcdfVar 2 out exSamplers 0 1 = some [2]) &&
    decide (netcdfVar 2 out exSamplers 1 0 = some [3, 7 / 2]) && decide (netcdfVar 2 out exSamplers 1 1 = some [4])) =
    true := by
  decide +kernel

example : ∀ ps, initParticles exGeo (exSamplers.map (·.pts)) exBoxes = some ps → ∀ ranks : List (List (Particle ℚ)),
    ranks.flatten.Perm ps → ∀ val : ℕ → Pos ℚ → ℚ, netcdfVar 2 (outputBuf 2 3 (populateBuffer 2 3 val ranks) exSamplers)
      exSamplers 1 1 = some [2 * val 1 fun _ => 1] := by
  intro ps hps ranks hr val
  exact file_correct exGeo_ok exBoxes_partition exSamplers_inside (by
    intro s hs iv l hl
    simp only [exSamplers, List.mem_cons, List.not_mem_nil, or_false] at hs
    rcases hs with rfl | rfl
    · exact hl
    · simpa using hl) hps hr val (by norm_num) (q := ⟨[fun _ => 1], fun _ l => l.map (2 * ·), 1⟩) rfl

end AmrWind.Sampling
