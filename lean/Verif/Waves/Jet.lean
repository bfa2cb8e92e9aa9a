import Mathlib.Analysis.Asymptotics.Lemmas
import Mathlib.Analysis.SpecialFunctions.Trigonometric.Deriv
import Mathlib.Analysis.Complex.Trigonometric
import Mathlib.Tactic.Ring
import Mathlib.Tactic.FieldSimp

/-!
# Expansions in a small number, up to its fifth power, uniformly in an angle

Helpers for `Waves/StokesProps.lean`; nothing of the code is modelled here.
-/

set_option linter.unusedSectionVars false

namespace AmrWind.Waves

open Filter Topology Asymptotics

/-- The first number tends to zero, the second is any. -/
def small : Filter (ℝ × ℝ) := comap Prod.fst (𝓝 0)

/-- Bounded for small first numbers, uniformly in the second. -/
def Bd (f : ℝ × ℝ → ℝ) : Prop := f =O[small] fun _ => (1 : ℝ)

theorem Bd.add {f g : ℝ × ℝ → ℝ} (hf : Bd f) (hg : Bd g) : Bd fun p => f p + g p := IsBigO.add hf hg

theorem Bd.mul {f g : ℝ × ℝ → ℝ} (hf : Bd f) (hg : Bd g) : Bd fun p => f p * g p := by
  have := IsBigO.mul hf hg
  simpa [Bd] using this

theorem Bd.const (c : ℝ) : Bd fun _ => c := isBigO_const_const c one_ne_zero _

theorem fst_tendsto : Tendsto (fun p : ℝ × ℝ => p.1) small (𝓝 0) := tendsto_comap

theorem Bd.fst : Bd fun p => p.1 := fst_tendsto.isBigO_one ℝ

theorem Bd.pow {f : ℝ × ℝ → ℝ} (hf : Bd f) (n : ℕ) : Bd fun p => f p ^ n := by
  have := IsBigO.pow hf n
  simpa [Bd] using this

theorem Bd.ang {f : ℝ → ℝ} (M : ℝ) (h : ∀ t, |f t| ≤ M) : Bd fun p => f p.2 :=
  IsBigO.of_bound M (Eventually.of_forall fun p => by simpa using h p.2)

/-- The coefficients of an expansion. -/
@[ext] structure Jet where
  a0 : ℝ
  a1 : ℝ
  a2 : ℝ
  a3 : ℝ
  a4 : ℝ
  a5 : ℝ

namespace Jet

def eval (j : Jet) (e : ℝ) : ℝ := j.a0 + j.a1 * e + j.a2 * e ^ 2 + j.a3 * e ^ 3 + j.a4 * e ^ 4 + j.a5 * e ^ 5

def add (x y : Jet) : Jet := ⟨x.a0 + y.a0, x.a1 + y.a1, x.a2 + y.a2, x.a3 + y.a3, x.a4 + y.a4, x.a5 + y.a5⟩

def mul (x y : Jet) : Jet :=
  ⟨x.a0 * y.a0, x.a0 * y.a1 + x.a1 * y.a0, x.a0 * y.a2 + x.a1 * y.a1 + x.a2 * y.a0,
   x.a0 * y.a3 + x.a1 * y.a2 + x.a2 * y.a1 + x.a3 * y.a0,
   x.a0 * y.a4 + x.a1 * y.a3 + x.a2 * y.a2 + x.a3 * y.a1 + x.a4 * y.a0,
   x.a0 * y.a5 + x.a1 * y.a4 + x.a2 * y.a3 + x.a3 * y.a2 + x.a4 * y.a1 + x.a5 * y.a0⟩

def scale (c : ℝ) (x : Jet) : Jet := ⟨c * x.a0, c * x.a1, c * x.a2, c * x.a3, c * x.a4, c * x.a5⟩

/-- What the product leaves over, divided by the sixth power. -/
def rem (x y : Jet) (e : ℝ) : ℝ :=
  (x.a1 * y.a5 + x.a2 * y.a4 + x.a3 * y.a3 + x.a4 * y.a2 + x.a5 * y.a1) +
  (x.a2 * y.a5 + x.a3 * y.a4 + x.a4 * y.a3 + x.a5 * y.a2) * e + (x.a3 * y.a5 + x.a4 * y.a4 + x.a5 * y.a3) * e ^ 2 +
  (x.a4 * y.a5 + x.a5 * y.a4) * e ^ 3 + x.a5 * y.a5 * e ^ 4

theorem eval_mul (x y : Jet) (e : ℝ) : x.eval e * y.eval e = (x.mul y).eval e + e ^ 6 * rem x y e := by
  simp only [eval, mul, rem]; ring

theorem eval_add (x y : Jet) (e : ℝ) : (x.add y).eval e = x.eval e + y.eval e := by simp only [eval, add]; ring

theorem eval_scale (c : ℝ) (x : Jet) (e : ℝ) : (x.scale c).eval e = c * x.eval e := by simp only [eval, scale]; ring

end Jet

/-- The coefficients are bounded in the angle. -/
structure JBd (j : ℝ → Jet) : Prop where
  a0 : Bd fun p => (j p.2).a0
  a1 : Bd fun p => (j p.2).a1
  a2 : Bd fun p => (j p.2).a2
  a3 : Bd fun p => (j p.2).a3
  a4 : Bd fun p => (j p.2).a4
  a5 : Bd fun p => (j p.2).a5

/-- `f` has the expansion `j`, up to the sixth power of the small number, uniformly in the angle. -/
structure Has (f : ℝ × ℝ → ℝ) (j : ℝ → Jet) : Prop where
  bd : JBd j
  rest : (fun p => f p - (j p.2).eval p.1) =O[small] fun p => p.1 ^ 6

theorem JBd.eval {j : ℝ → Jet} (h : JBd j) : Bd fun p => (j p.2).eval p.1 := by
  have e := Bd.fst
  unfold Jet.eval
  exact ((((h.a0.add (h.a1.mul e)).add (h.a2.mul (e.pow 2))).add (h.a3.mul (e.pow 3))).add (h.a4.mul (e.pow 4))).add
    (h.a5.mul (e.pow 5))

theorem pow6_bd : (fun p : ℝ × ℝ => p.1 ^ 6) =O[small] fun _ => (1 : ℝ) := Bd.fst.pow 6

theorem Has.bounded {f : ℝ × ℝ → ℝ} {j : ℝ → Jet} (h : Has f j) : Bd f := by
  have := Bd.add (IsBigO.trans h.rest pow6_bd : Bd _) h.bd.eval
  simpa using this

theorem Has.add {f g : ℝ × ℝ → ℝ} {i j : ℝ → Jet} (hf : Has f i) (hg : Has g j) :
    Has (fun p => f p + g p) fun t => (i t).add (j t) := by
  refine ⟨⟨hf.bd.a0.add hg.bd.a0, hf.bd.a1.add hg.bd.a1, hf.bd.a2.add hg.bd.a2, hf.bd.a3.add hg.bd.a3,
    hf.bd.a4.add hg.bd.a4, hf.bd.a5.add hg.bd.a5⟩, ?_⟩
  refine (IsBigO.add hf.rest hg.rest).congr_left fun p => ?_
  rw [Jet.eval_add]; ring

theorem Has.scale {f : ℝ × ℝ → ℝ} {j : ℝ → Jet} (h : Has f j) {c : ℝ → ℝ} (M : ℝ) (hc : ∀ t, |c t| ≤ M) :
    Has (fun p => c p.2 * f p) fun t => (j t).scale (c t) := by
  have b := Bd.ang M hc
  refine ⟨⟨b.mul h.bd.a0, b.mul h.bd.a1, b.mul h.bd.a2, b.mul h.bd.a3, b.mul h.bd.a4, b.mul h.bd.a5⟩, ?_⟩
  have := IsBigO.mul (b : _ =O[small] _) h.rest
  refine (this.congr_left fun p => ?_).trans (by simpa using isBigO_refl _ _)
  rw [Jet.eval_scale]; ring

theorem Has.mul {f g : ℝ × ℝ → ℝ} {i j : ℝ → Jet} (hf : Has f i) (hg : Has g j) :
    Has (fun p => f p * g p) fun t => (i t).mul (j t) := by
  have x := hf.bd
  have y := hg.bd
  have e := Bd.fst
  refine ⟨⟨x.a0.mul y.a0, (x.a0.mul y.a1).add (x.a1.mul y.a0),
    ((x.a0.mul y.a2).add (x.a1.mul y.a1)).add (x.a2.mul y.a0),
    (((x.a0.mul y.a3).add (x.a1.mul y.a2)).add (x.a2.mul y.a1)).add (x.a3.mul y.a0),
    ((((x.a0.mul y.a4).add (x.a1.mul y.a3)).add (x.a2.mul y.a2)).add (x.a3.mul y.a1)).add (x.a4.mul y.a0),
    (((((x.a0.mul y.a5).add (x.a1.mul y.a4)).add (x.a2.mul y.a3)).add (x.a3.mul y.a2)).add (x.a4.mul y.a1)).add
      (x.a5.mul y.a0)⟩, ?_⟩
  have hr : Bd fun p => Jet.rem (i p.2) (j p.2) p.1 := by
    unfold Jet.rem
    have r0 := ((((x.a1.mul y.a5).add (x.a2.mul y.a4)).add (x.a3.mul y.a3)).add (x.a4.mul y.a2)).add (x.a5.mul y.a1)
    have r1 := (((x.a2.mul y.a5).add (x.a3.mul y.a4)).add (x.a4.mul y.a3)).add (x.a5.mul y.a2)
    have r2 := ((x.a3.mul y.a5).add (x.a4.mul y.a4)).add (x.a5.mul y.a3)
    have r3 := (x.a4.mul y.a5).add (x.a5.mul y.a4)
    exact (((r0.add (r1.mul e)).add (r2.mul (e.pow 2))).add (r3.mul (e.pow 3))).add ((x.a5.mul y.a5).mul (e.pow 4))
  have h1 : (fun p => (f p - (i p.2).eval p.1) * g p) =O[small] fun p => p.1 ^ 6 := by
    simpa using IsBigO.mul hf.rest (hg.bounded : _ =O[small] _)
  have h2 : (fun p => (i p.2).eval p.1 * (g p - (j p.2).eval p.1)) =O[small] fun p => p.1 ^ 6 := by
    simpa using IsBigO.mul (x.eval : _ =O[small] _) hg.rest
  have h3 : (fun p : ℝ × ℝ => p.1 ^ 6 * Jet.rem (i p.2) (j p.2) p.1) =O[small] fun p => p.1 ^ 6 := by
    simpa using IsBigO.mul (isBigO_refl (fun p : ℝ × ℝ => p.1 ^ 6) small) (hr : _ =O[small] _)
  refine ((h1.add h2).add h3).congr_left fun p => ?_
  have := Jet.eval_mul (i p.2) (j p.2) p.1
  linear_combination -this

/-- A polynomial of degree five in the small number. -/
theorem Has.poly {j : ℝ → Jet} (h : JBd j) : Has (fun p => (j p.2).eval p.1) j :=
  ⟨h, by simpa using (isBigO_zero (fun p : ℝ × ℝ => p.1 ^ 6) small)⟩

theorem Has.congr {f g : ℝ × ℝ → ℝ} {j : ℝ → Jet} (h : Has f j) (hg : ∀ p, g p = f p) : Has g j := by
  have : g = f := funext hg
  rwa [this]

theorem Has.congr' {f g : ℝ × ℝ → ℝ} {j : ℝ → Jet} (h : Has f j) (hg : ∀ᶠ p in small, g p = f p) : Has g j :=
  ⟨h.bd, h.rest.congr' (by filter_upwards [hg] with p hp; rw [hp]) EventuallyEq.rfl⟩

theorem Has.congr_jet {f : ℝ × ℝ → ℝ} {i j : ℝ → Jet} (h : Has f i) (hj : ∀ t, i t = j t) : Has f j := by
  have : i = j := funext hj
  rwa [← this]

/-! ## Hyperbolic functions of a small argument -/

theorem exp_five {y : ℝ} (hy : |y| ≤ 1) :
    |Real.exp y - (1 + y + y ^ 2 / 2 + y ^ 3 / 6 + y ^ 4 / 24 + y ^ 5 / 120)| ≤ |y| ^ 6 := by
  have h := Real.exp_bound hy (n := 6) (by norm_num)
  simp only [Finset.sum_range_succ, Finset.sum_range_zero, Nat.factorial] at h
  norm_num at h
  refine le_trans (le_of_eq ?_) (le_trans h ?_)
  · congr 1
  · have := pow_nonneg (abs_nonneg y) 6
    rw [← abs_pow] at *
    nlinarith

theorem cosh_four {y : ℝ} (hy : |y| ≤ 1) : |Real.cosh y - (1 + y ^ 2 / 2 + y ^ 4 / 24)| ≤ |y| ^ 6 := by
  have h1 := abs_le.mp (exp_five hy)
  have h2 := abs_le.mp (exp_five (y := -y) (by simpa using hy))
  rw [abs_neg] at h2
  rw [Real.cosh_eq, abs_le]
  constructor <;> nlinarith

theorem sinh_five {y : ℝ} (hy : |y| ≤ 1) : |Real.sinh y - (y + y ^ 3 / 6 + y ^ 5 / 120)| ≤ |y| ^ 6 := by
  have h1 := abs_le.mp (exp_five hy)
  have h2 := abs_le.mp (exp_five (y := -y) (by simpa using hy))
  rw [abs_neg] at h2
  rw [Real.sinh_eq, abs_le]
  constructor <;> nlinarith

/-- A function with no constant term is of the order of the small number. -/
theorem Has.order_one {f : ℝ × ℝ → ℝ} {j : ℝ → Jet} (h : Has f j) (h0 : ∀ t, (j t).a0 = 0) :
    f =O[small] fun p => p.1 := by
  have e := Bd.fst
  have hq : Bd fun p => (j p.2).a1 + (j p.2).a2 * p.1 + (j p.2).a3 * p.1 ^ 2 + (j p.2).a4 * p.1 ^ 3 + (j p.2).a5 * p.1 ^ 4 :=
    (((h.bd.a1.add (h.bd.a2.mul e)).add (h.bd.a3.mul (e.pow 2))).add (h.bd.a4.mul (e.pow 3))).add (h.bd.a5.mul (e.pow 4))
  have h1 : (fun p : ℝ × ℝ => p.1 * ((j p.2).a1 + (j p.2).a2 * p.1 + (j p.2).a3 * p.1 ^ 2 + (j p.2).a4 * p.1 ^ 3 +
      (j p.2).a5 * p.1 ^ 4)) =O[small] fun p => p.1 := by
    simpa using IsBigO.mul (isBigO_refl (fun p : ℝ × ℝ => p.1) small) (hq : _ =O[small] _)
  have h2 : (fun p : ℝ × ℝ => p.1 ^ 6) =O[small] fun p => p.1 := by
    have := IsBigO.mul (isBigO_refl (fun p : ℝ × ℝ => p.1) small) (e.pow 5 : _ =O[small] _)
    refine (this.congr_left fun p => by ring).trans (by simpa using isBigO_refl _ _)
  refine ((h.rest.trans h2).add h1).congr_left fun p => ?_
  rw [Jet.eval, h0]; ring

theorem Has.to_zero {f : ℝ × ℝ → ℝ} {j : ℝ → Jet} (h : Has f j) (h0 : ∀ t, (j t).a0 = 0) : Tendsto f small (𝓝 0) :=
  (h.order_one h0).trans_tendsto fst_tendsto

namespace Jet
def one : Jet := ⟨1, 0, 0, 0, 0, 0⟩
noncomputable def coshJ (x : Jet) : Jet := (one.add ((x.mul x).scale (1 / 2))).add (((x.mul x).mul (x.mul x)).scale (1 / 24))
noncomputable def sinhJ (x : Jet) : Jet :=
  (x.add ((x.mul (x.mul x)).scale (1 / 6))).add ((x.mul ((x.mul x).mul (x.mul x))).scale (1 / 120))
end Jet

theorem JBd.one : JBd fun _ => Jet.one :=
  ⟨Bd.const 1, Bd.const 0, Bd.const 0, Bd.const 0, Bd.const 0, Bd.const 0⟩

theorem Has.small_rest {f F : ℝ × ℝ → ℝ} {j i : ℝ → Jet} (h : Has f j) (h0 : ∀ t, (j t).a0 = 0) {H : ℝ → ℝ}
    {T : ℝ → ℝ} (hT : ∀ y, |y| ≤ 1 → |H y - T y| ≤ |y| ^ 6)
    (hF : ∀ p, F p = T (f p)) (hi : Has F i) : Has (fun p => H (f p)) i := by
  refine ⟨hi.bd, ?_⟩
  have hev : ∀ᶠ p in small, |f p| ≤ 1 := by
    have := (h.to_zero h0).eventually (Metric.ball_mem_nhds (0 : ℝ) one_pos)
    filter_upwards [this] with p hp
    simp at hp
    exact hp.le
  have h1 : (fun p => H (f p) - T (f p)) =O[small] fun p => p.1 ^ 6 := by
    have ha : (fun p => H (f p) - T (f p)) =O[small] fun p => f p ^ 6 := by
      refine IsBigO.of_bound 1 ?_
      filter_upwards [hev] with p hp
      simpa using hT (f p) hp
    exact ha.trans ((h.order_one h0).pow 6)
  refine (h1.add hi.rest).congr_left fun p => ?_
  rw [hF]; ring

theorem Has.cosh {f : ℝ × ℝ → ℝ} {j : ℝ → Jet} (h : Has f j) (h0 : ∀ t, (j t).a0 = 0) :
    Has (fun p => Real.cosh (f p)) fun t => (j t).coshJ := by
  have h2 := h.mul h
  have h4 := h2.mul h2
  have hp := ((Has.poly JBd.one).add (h2.scale (c := fun _ => 1 / 2) (|1 / 2|) fun _ => le_rfl)).add
    (h4.scale (c := fun _ => 1 / 24) (|1 / 24|) fun _ => le_rfl)
  exact h.small_rest h0 (H := Real.cosh) (T := fun y => 1 + y ^ 2 / 2 + y ^ 4 / 24)
    (fun y hy => cosh_four hy) (fun p => by simp only [Jet.eval, Jet.one]; ring) hp

theorem Has.sinh {f : ℝ × ℝ → ℝ} {j : ℝ → Jet} (h : Has f j) (h0 : ∀ t, (j t).a0 = 0) :
    Has (fun p => Real.sinh (f p)) fun t => (j t).sinhJ := by
  have h2 := h.mul h
  have h3 := h.mul h2
  have h5 := h.mul (h2.mul h2)
  have hp := (h.add (h3.scale (c := fun _ => 1 / 6) (|1 / 6|) fun _ => le_rfl)).add
    (h5.scale (c := fun _ => 1 / 120) (|1 / 120|) fun _ => le_rfl)
  exact h.small_rest h0 (H := Real.sinh) (T := fun y => y + y ^ 3 / 6 + y ^ 5 / 120)
    (fun y hy => sinh_five hy) (fun p => by ring) hp

/-! ## What an expansion with vanishing terms says -/

def Jet.zeroTo (j : Jet) (n : ℕ) : Prop :=
  j.a0 = 0 ∧ (1 ≤ n → j.a1 = 0) ∧ (2 ≤ n → j.a2 = 0) ∧ (3 ≤ n → j.a3 = 0) ∧ (4 ≤ n → j.a4 = 0) ∧ (5 ≤ n → j.a5 = 0)

theorem Has.bound {f : ℝ × ℝ → ℝ} {j : ℝ → Jet} (h : Has f j) {n : ℕ} (hn : 2 ≤ n) (hn5 : n ≤ 5) (hz : ∀ t, (j t).zeroTo n) :
    ∃ C δ : ℝ, 0 < δ ∧ ∀ e, |e| < δ → ∀ t, |f (e, t)| ≤ C * |e| ^ (n + 1) := by
  have e := Bd.fst
  have hle : ∀ m k : ℕ, (fun p : ℝ × ℝ => p.1 ^ (m + k)) =O[small] fun p => p.1 ^ m := by
    intro m k
    have := IsBigO.mul (isBigO_refl (fun p : ℝ × ℝ => p.1 ^ m) small) (e.pow k : _ =O[small] _)
    refine (this.congr_left fun p => by ring).trans (by simpa using isBigO_refl _ _)
  have hterm : ∀ {c : ℝ × ℝ → ℝ} {m : ℕ}, Bd c → n + 1 ≤ m → (fun p => c p * p.1 ^ m) =O[small] fun p => p.1 ^ (n + 1) := by
    intro c m hc hm
    obtain ⟨k, rfl⟩ := Nat.exists_eq_add_of_le hm
    simpa using IsBigO.mul (hc : _ =O[small] _) (hle (n + 1) k)
  have hmain : f =O[small] fun p => p.1 ^ (n + 1) := by
    have h6 : (fun p : ℝ × ℝ => p.1 ^ 6) =O[small] fun p => p.1 ^ (n + 1) := by
      obtain ⟨k, hk⟩ := Nat.exists_eq_add_of_le (show n + 1 ≤ 6 by omega)
      rw [hk]; exact hle _ _
    have hp : (fun p => (j p.2).eval p.1) =O[small] fun p => p.1 ^ (n + 1) := by
      have hzero : (fun _ : ℝ × ℝ => (0 : ℝ)) =O[small] fun p => p.1 ^ (n + 1) := isBigO_zero _ _
      have c3 : (fun p => (j p.2).a3 * p.1 ^ 3) =O[small] fun p => p.1 ^ (n + 1) := by
        by_cases hh : 3 ≤ n
        · exact hzero.congr_left fun p => by rw [(hz p.2).2.2.2.1 hh]; ring
        · exact hterm h.bd.a3 (by omega)
      have c4 : (fun p => (j p.2).a4 * p.1 ^ 4) =O[small] fun p => p.1 ^ (n + 1) := by
        by_cases hh : 4 ≤ n
        · exact hzero.congr_left fun p => by rw [(hz p.2).2.2.2.2.1 hh]; ring
        · exact hterm h.bd.a4 (by omega)
      have c5 : (fun p => (j p.2).a5 * p.1 ^ 5) =O[small] fun p => p.1 ^ (n + 1) := by
        by_cases hh : 5 ≤ n
        · exact hzero.congr_left fun p => by rw [(hz p.2).2.2.2.2.2 hh]; ring
        · exact hterm h.bd.a5 (by omega)
      refine ((c3.add c4).add c5).congr_left fun p => ?_
      rw [Jet.eval, (hz p.2).1, (hz p.2).2.1 (by omega), (hz p.2).2.2.1 (by omega)]
      ring
    refine ((h.rest.trans h6).add hp).congr_left fun p => ?_
    ring
  obtain ⟨C, hC⟩ := hmain.bound
  rw [small, eventually_comap] at hC
  obtain ⟨δ, hδ, hb⟩ := Metric.eventually_nhds_iff.mp hC
  refine ⟨C, δ, hδ, fun e he t => ?_⟩
  have := hb (y := e) (by simpa using he) (e, t) rfl
  simpa using this

end AmrWind.Waves
