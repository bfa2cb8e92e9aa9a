import Verif.Waves.Jet
import Mathlib.Tactic.LinearCombination

/-!
# Algebra of the coefficients of Stokes waves in `r = coth kd`

Helpers for `Waves/StokesProps.lean`; nothing of the code is modelled here.
-/

set_option linter.unusedSectionVars false
set_option linter.unusedSimpArgs false
set_option linter.unusedTactic false

namespace AmrWind.Waves

/-- The coefficients of the elevation and of the speed, and of the velocities: `p i j` and `q i j` are `j A_ij` times
      the
hyperbolic cosine and sine of `j kd`. -/
structure Al where
  r : ℝ
  b22 : ℝ
  b31 : ℝ
  b42 : ℝ
  b44 : ℝ
  b53 : ℝ
  b55 : ℝ
  g2 : ℝ
  g4 : ℝ
  p31 : ℝ
  q31 : ℝ
  p51 : ℝ
  q51 : ℝ
  p22 : ℝ
  q22 : ℝ
  p42 : ℝ
  q42 : ℝ
  p33 : ℝ
  q33 : ℝ
  p53 : ℝ
  q53 : ℝ
  p44 : ℝ
  q44 : ℝ
  p55 : ℝ
  q55 : ℝ

/-- The coefficients as functions of `r`. -/
noncomputable def closed (r : ℝ) : Al where
  r := r
  b22 := (-1 * r + 3 * r ^ 3) / (4)
  b31 := (3 - 9 * r ^ 2 + 9 * r ^ 4 - 27 * r ^ 6) / (64)
  b42 := (3 * r - 88 * r ^ 3 + 198 * r ^ 5 - 81 * r ^ 9) / (96)
  b44 := (21 * r + 1 * r ^ 3 - 262 * r ^ 5 + 522 * r ^ 7 + 81 * r ^ 9 + 405 * r ^ 11) / (384 * (5 * r ^ 2 + 1))
  b53 := (-45 * r ^ 2 - 252 * r ^ 4 + 225 * r ^ 6 - 1332 * r ^ 8 + 11745 * r ^ 10 - 1944 * r ^ 12 - 3645 * r ^ 14) /
      (1024 * (5 * r ^ 2 + 1))
  b55 := (225 - 750 * r ^ 2 - 2850 * r ^ 4 + 13090 * r ^ 6 - 19480 * r ^ 8 - 2490 * r ^ 10 + 129330 * r ^ 12 + 44550 *
      r ^ 14 + 30375 * r ^ 16) / (12288 * (5 * r ^ 2 + 1) * (5 * r ^ 2 + 3))
  g2 := (9 - 10 * r ^ 2 + 9 * r ^ 4) / (16)
  g4 := (39 + 351 * r ^ 2 - 2194 * r ^ 4 + 2454 * r ^ 6 - 117 * r ^ 8 - 405 * r ^ 10) / (1024)
  p31 := (39 * r - 41 * r ^ 3 - 3 * r ^ 5 - 27 * r ^ 7) / (64)
  q31 := (39 - 41 * r ^ 2 - 3 * r ^ 4 - 27 * r ^ 6) / (64)
  p51 := (861 * r + 12262 * r ^ 3 + 30114 * r ^ 5 - 75986 * r ^ 7 - 131460 * r ^ 9 - 91438 * r ^ 11 - 199602 * r ^ 13
      + 89370 * r ^ 15 + 62775 * r ^ 17) / (4096 * (5 * r ^ 2 + 1) * (5 * r ^ 2 + 3))
  q51 := (861 + 12262 * r ^ 2 + 30114 * r ^ 4 - 75986 * r ^ 6 - 131460 * r ^ 8 - 91438 * r ^ 10 - 199602 * r ^ 12 +
      89370 * r ^ 14 + 62775 * r ^ 16) / (4096 * (5 * r ^ 2 + 1) * (5 * r ^ 2 + 3))
  p22 := (-3 + 3 * r ^ 4) / (4)
  q22 := (-3 * r + 3 * r ^ 3) / (2)
  p42 := (-103 - 84 * r ^ 2 + 280 * r ^ 4 + 342 * r ^ 6 - 81 * r ^ 8 - 162 * r ^ 10) / (192)
  q42 := (-103 * r + 19 * r ^ 3 + 261 * r ^ 5 + 81 * r ^ 7 - 162 * r ^ 9) / (96)
  p33 := (117 * r - 159 * r ^ 3 + 15 * r ^ 5 + 27 * r ^ 7) / (64)
  q33 := (39 + 51 * r ^ 2 - 171 * r ^ 4 + 81 * r ^ 6) / (64)
  p53 := (1557 * r + 8565 * r ^ 3 - 6471 * r ^ 5 - 34911 * r ^ 7 + 16839 * r ^ 9 + 25191 * r ^ 11 - 5589 * r ^ 13 -
      3645 * r ^ 15) / (1024 * (5 * r ^ 2 + 1))
  q53 := (519 + 4239 * r ^ 2 + 4995 * r ^ 4 - 19773 * r ^ 6 - 22707 * r ^ 8 + 32805 * r ^ 10 + 12393 * r ^ 12 - 10935
      * r ^ 14) / (1024 * (5 * r ^ 2 + 1))
  p44 := (-197 - 1732 * r ^ 2 - 1481 * r ^ 4 + 9872 * r ^ 6 - 7623 * r ^ 8 + 756 * r ^ 10 + 405 * r ^ 12) / (384 * (5
      * r ^ 2 + 1))
  q44 := (-197 * r - 747 * r ^ 3 + 1466 * r ^ 5 + 342 * r ^ 7 - 1269 * r ^ 9 + 405 * r ^ 11) / (96 * (5 * r ^ 2 + 1))
  p55 := (27075 * r + 164150 * r ^ 3 - 10710 * r ^ 5 - 607250 * r ^ 7 + 141200 * r ^ 9 + 676450 * r ^ 11 - 442890 * r
      ^ 13 + 41850 * r ^ 15 + 10125 * r ^ 17) / (4096 * (5 * r ^ 2 + 1) * (5 * r ^ 2 + 3))
  q55 := (5415 + 76150 * r ^ 2 + 199850 * r ^ 4 - 393650 * r ^ 6 - 449640 * r ^ 8 + 788450 * r ^ 10 - 81450 * r ^ 12 -
      195750 * r ^ 14 + 50625 * r ^ 16) / (4096 * (5 * r ^ 2 + 1) * (5 * r ^ 2 + 3))

namespace Al
variable (A : Al)

def zJ (c : ℕ → ℝ) : Jet :=
  ⟨0, c 1, A.b22 * c 2, A.b31 * (c 1 - c 3), A.b42 * c 2 + A.b44 * c 4,
    -(A.b53 + A.b55) * c 1 + A.b53 * c 3 + A.b55 * c 5⟩

/-- The slope of the elevation. -/
def dJ (s : ℕ → ℝ) : Jet :=
  ⟨0, -s 1, -(2 * A.b22 * s 2), A.b31 * (3 * s 3 - s 1), -(2 * A.b42 * s 2 + 4 * A.b44 * s 4),
    (A.b53 + A.b55) * s 1 - 3 * A.b53 * s 3 - 5 * A.b55 * s 5⟩

def pJ : ℕ → Jet
  | 1 => ⟨0, A.r, 0, A.p31, 0, A.p51⟩
  | 2 => ⟨0, 0, A.p22, 0, A.p42, 0⟩
  | 3 => ⟨0, 0, 0, A.p33, 0, A.p53⟩
  | 4 => ⟨0, 0, 0, 0, A.p44, 0⟩
  | _ => ⟨0, 0, 0, 0, 0, A.p55⟩

def qJ : ℕ → Jet
  | 1 => ⟨0, 1, 0, A.q31, 0, A.q51⟩
  | 2 => ⟨0, 0, A.q22, 0, A.q42, 0⟩
  | 3 => ⟨0, 0, 0, A.q33, 0, A.q53⟩
  | 4 => ⟨0, 0, 0, 0, A.q44, 0⟩
  | _ => ⟨0, 0, 0, 0, 0, A.q55⟩

/-- The horizontal part of harmonic `j` on the surface. -/
noncomputable def uT (c : ℕ → ℝ) (j : ℕ) : Jet :=
  (((A.pJ j).mul ((A.zJ c).scale j).coshJ).add ((A.qJ j).mul ((A.zJ c).scale j).sinhJ)).scale (c j)

noncomputable def wT (c s : ℕ → ℝ) (j : ℕ) : Jet :=
  (((A.qJ j).mul ((A.zJ c).scale j).coshJ).add ((A.pJ j).mul ((A.zJ c).scale j).sinhJ)).scale (s j)

noncomputable def uJ (c : ℕ → ℝ) : Jet :=
  ((((A.uT c 1).add (A.uT c 2)).add (A.uT c 3)).add (A.uT c 4)).add (A.uT c 5)

noncomputable def wJ (c s : ℕ → ℝ) : Jet :=
  ((((A.wT c s 1).add (A.wT c s 2)).add (A.wT c s 3)).add (A.wT c s 4)).add (A.wT c s 5)

/-- Minus the speed of the wave. -/
def vJ : Jet := ⟨-1, 0, -A.g2, 0, -A.g4, 0⟩

noncomputable def kinJ (c s : ℕ → ℝ) : Jet :=
  (A.wJ c s).add (((((A.uJ c).add A.vJ).mul (A.dJ s))).scale (-1))

noncomputable def dynJ (c s : ℕ → ℝ) : Jet :=
    (((((A.uJ c).add A.vJ).mul ((A.uJ c).add A.vJ)).add ((A.wJ c s).mul (A.wJ c s))).scale (1 / 2)).add ((A.zJ
      c).scale A.r)

end Al

/-- The multiples of an angle with cosine `X` and sine `Y`. -/
def cosM (X : ℝ) : ℕ → ℝ
  | 0 => 1
  | 1 => X
  | 2 => 2 * X ^ 2 - 1
  | 3 => 4 * X ^ 3 - 3 * X
  | 4 => 8 * X ^ 4 - 8 * X ^ 2 + 1
  | _ => 16 * X ^ 5 - 20 * X ^ 3 + 5 * X

def sinM (X Y : ℝ) : ℕ → ℝ
  | 0 => 0
  | 1 => Y
  | 2 => 2 * X * Y
  | 3 => Y * (4 * X ^ 2 - 1)
  | 4 => Y * (8 * X ^ 3 - 4 * X)
  | _ => Y * (16 * X ^ 4 - 12 * X ^ 2 + 1)

/-! ## The terms of the expansion -/

theorem kin_split0 (A : Al) (X Y : ℝ) : (A.kinJ (cosM X) (sinM X Y)).a0 =
    0 := by
  simp only [Al.kinJ, Al.wJ, Al.uJ, Al.wT, Al.uT, Al.zJ, Al.dJ, Al.vJ, Al.pJ, Al.qJ, Jet.add, Jet.mul, Jet.scale,
      Jet.coshJ,
    Jet.sinhJ, Jet.one, cosM, sinM, mul_zero, zero_mul, add_zero, zero_add, mul_one, one_mul]

theorem kin0 (r X Y : ℝ) : ((closed r).kinJ (cosM X) (sinM X Y)).a0 = 0 := by
  rw [kin_split0]

theorem kin_split1 (A : Al) (X Y : ℝ) : (A.kinJ (cosM X) (sinM X Y)).a1 =
    0 := by
  simp only [Al.kinJ, Al.wJ, Al.uJ, Al.wT, Al.uT, Al.zJ, Al.dJ, Al.vJ, Al.pJ, Al.qJ, Jet.add, Jet.mul, Jet.scale,
      Jet.coshJ,
    Jet.sinhJ, Jet.one, cosM, sinM, mul_zero, zero_mul, add_zero, zero_add, mul_one, one_mul]
  push_cast
  ring

theorem kin1 (r X Y : ℝ) : ((closed r).kinJ (cosM X) (sinM X Y)).a1 = 0 := by
  rw [kin_split1]

theorem kin_split2 (A : Al) (X Y : ℝ) : (A.kinJ (cosM X) (sinM X Y)).a2 =
    Y * ((-4 * A.b22 + 2 * A.q22 + 2 * A.r) * X ^ 1) := by
  simp only [Al.kinJ, Al.wJ, Al.uJ, Al.wT, Al.uT, Al.zJ, Al.dJ, Al.vJ, Al.pJ, Al.qJ, Jet.add, Jet.mul, Jet.scale,
      Jet.coshJ,
    Jet.sinhJ, Jet.one, cosM, sinM, mul_zero, zero_mul, add_zero, zero_add, mul_one, one_mul]
  push_cast
  ring

theorem kin_h2_1 (r : ℝ) :
    -4 * (closed r).b22 + 2 * (closed r).q22 + 2 * (closed r).r = 0 := by
  simp only [closed]
  field_simp
  ring

theorem kin2 (r X Y : ℝ) : ((closed r).kinJ (cosM X) (sinM X Y)).a2 = 0 := by
  rw [kin_split2, kin_h2_1]
  ring

theorem kin_split3 (A : Al) (X Y : ℝ) : (A.kinJ (cosM X) (sinM X Y)).a3 =
    Y * ((-A.b22 * A.r - 4 * A.b31 - A.g2 - A.p22 + A.q31 - A.q33) * X ^ 0 + (3 / 2 + 6 * A.b22 * A.r + 12 * A.b31 + 6
      * A.p22 + 4 * A.q33) * X ^ 2) := by
  simp only [Al.kinJ, Al.wJ, Al.uJ, Al.wT, Al.uT, Al.zJ, Al.dJ, Al.vJ, Al.pJ, Al.qJ, Jet.add, Jet.mul, Jet.scale,
      Jet.coshJ,
    Jet.sinhJ, Jet.one, cosM, sinM, mul_zero, zero_mul, add_zero, zero_add, mul_one, one_mul]
  push_cast
  ring

theorem kin_h3_0 (r : ℝ) :
    -(closed r).b22 * (closed r).r - 4 * (closed r).b31 - (closed r).g2 - (closed r).p22 + (closed r).q31 - (closed
      r).q33 = 0 := by
  simp only [closed]
  field_simp
  ring

theorem kin_h3_2 (r : ℝ) :
    3 / 2 + 6 * (closed r).b22 * (closed r).r + 12 * (closed r).b31 + 6 * (closed r).p22 + 4 * (closed r).q33 = 0 := by
  simp only [closed]
  field_simp
  ring

theorem kin3 (r X Y : ℝ) : ((closed r).kinJ (cosM X) (sinM X Y)).a3 = 0 := by
  rw [kin_split3, kin_h3_0, kin_h3_2]
  ring

theorem kin_split4 (A : Al) (X Y : ℝ) : (A.kinJ (cosM X) (sinM X Y)).a4 =
    Y * ((-2 * A.b22 - 4 * A.b22 * A.g2 - 8 * A.b22 * A.p22 + 8 * A.b31 * A.r - 4 * A.b42 + 16 * A.b44 + 2 * A.p31 - 6
      * A.p33 - 2 * A.q22 + 2 * A.q42 - 4 * A.q44) * X ^ 1 + (8 * A.b22 + 16 * A.b22 * A.p22 - 16 * A.b31 * A.r - 32 *
      A.b44 + 16 * A.p33 + 8 * A.q22 + 8 * A.q44 + 2 / 3 * A.r) * X ^ 3) := by
  simp only [Al.kinJ, Al.wJ, Al.uJ, Al.wT, Al.uT, Al.zJ, Al.dJ, Al.vJ, Al.pJ, Al.qJ, Jet.add, Jet.mul, Jet.scale,
      Jet.coshJ,
    Jet.sinhJ, Jet.one, cosM, sinM, mul_zero, zero_mul, add_zero, zero_add, mul_one, one_mul]
  push_cast
  ring

theorem kin_h4_1 (r : ℝ) :
    -2 * (closed r).b22 - 4 * (closed r).b22 * (closed r).g2 - 8 * (closed r).b22 * (closed r).p22 + 8 * (closed
      r).b31 * (closed r).r - 4 * (closed r).b42 + 16 * (closed r).b44 + 2 * (closed r).p31 - 6 * (closed r).p33 - 2 *
      (closed r).q22 + 2 * (closed r).q42 - 4 * (closed r).q44 = 0 := by
  simp only [closed]
  field_simp
  ring

theorem kin_h4_3 (r : ℝ) :
    8 * (closed r).b22 + 16 * (closed r).b22 * (closed r).p22 - 16 * (closed r).b31 * (closed r).r - 32 * (closed
      r).b44 + 16 * (closed r).p33 + 8 * (closed r).q22 + 8 * (closed r).q44 + 2 / 3 * (closed r).r = 0 := by
  simp only [closed]
  field_simp
  ring

theorem kin4 (r X Y : ℝ) : ((closed r).kinJ (cosM X) (sinM X Y)).a4 = 0 := by
  rw [kin_split4, kin_h4_1, kin_h4_3]
  ring

theorem kin_split5 (A : Al) (X Y : ℝ) : (A.kinJ (cosM X) (sinM X Y)).a5 =
    Y * ((-A.b22 * A.p31 + 3 * A.b22 * A.p33 + 2 * A.b22 * A.q22 + 1 / 2 * A.b22 ^ 2 - 4 * A.b31 * A.g2 - 4 * A.b31 *
      A.p22 - A.b42 * A.r + A.b44 * A.r + 4 * A.b53 - 4 * A.b55 - A.g4 - A.p42 + A.p44 + A.q51 - A.q53 + A.q55) * X ^
      0 + (6 * A.b22 * A.p31 - 30 * A.b22 * A.p33 - 24 * A.b22 * A.q22 - 3 / 2 * A.b22 * A.r - 6 * A.b22 ^ 2 + 12 *
      A.b31 + 12 * A.b31 * A.g2 + 36 * A.b31 * A.p22 + 6 * A.b42 * A.r - 24 * A.b44 * A.r - 12 * A.b53 + 60 * A.b55 -
      2 * A.p22 + 6 * A.p42 - 24 * A.p44 + 3 / 2 * A.q31 - 27 / 2 * A.q33 + 4 * A.q53 - 12 * A.q55) * X ^ 2 + (5 / 24
      + 40 * A.b22 * A.p33 + 40 * A.b22 * A.q22 + 5 * A.b22 * A.r + 10 * A.b22 ^ 2 - 20 * A.b31 - 40 * A.b31 * A.p22 +
      40 * A.b44 * A.r - 80 * A.b55 + 20 / 3 * A.p22 + 40 * A.p44 + 30 * A.q33 + 16 * A.q55) * X ^ 4) := by
  simp only [Al.kinJ, Al.wJ, Al.uJ, Al.wT, Al.uT, Al.zJ, Al.dJ, Al.vJ, Al.pJ, Al.qJ, Jet.add, Jet.mul, Jet.scale,
      Jet.coshJ,
    Jet.sinhJ, Jet.one, cosM, sinM, mul_zero, zero_mul, add_zero, zero_add, mul_one, one_mul]
  push_cast
  ring

theorem kin_h5_0 (r : ℝ) :
    -(closed r).b22 * (closed r).p31 + 3 * (closed r).b22 * (closed r).p33 + 2 * (closed r).b22 * (closed r).q22 + 1 /
      2 * (closed r).b22 ^ 2 - 4 * (closed r).b31 * (closed r).g2 - 4 * (closed r).b31 * (closed r).p22 - (closed
      r).b42 * (closed r).r + (closed r).b44 * (closed r).r + 4 * (closed r).b53 - 4 * (closed r).b55 - (closed r).g4
      - (closed r).p42 + (closed r).p44 + (closed r).q51 - (closed r).q53 + (closed r).q55 = 0 := by
  simp only [closed]
  field_simp
  ring

theorem kin_h5_2 (r : ℝ) :
    6 * (closed r).b22 * (closed r).p31 - 30 * (closed r).b22 * (closed r).p33 - 24 * (closed r).b22 * (closed r).q22
      - 3 / 2 * (closed r).b22 * (closed r).r - 6 * (closed r).b22 ^ 2 + 12 * (closed r).b31 + 12 * (closed r).b31 *
      (closed r).g2 + 36 * (closed r).b31 * (closed r).p22 + 6 * (closed r).b42 * (closed r).r - 24 * (closed r).b44 *
      (closed r).r - 12 * (closed r).b53 + 60 * (closed r).b55 - 2 * (closed r).p22 + 6 * (closed r).p42 - 24 *
      (closed r).p44 + 3 / 2 * (closed r).q31 - 27 / 2 * (closed r).q33 + 4 * (closed r).q53 - 12 * (closed r).q55 = 0
      := by
  simp only [closed]
  field_simp
  ring

theorem kin_h5_4 (r : ℝ) :
    5 / 24 + 40 * (closed r).b22 * (closed r).p33 + 40 * (closed r).b22 * (closed r).q22 + 5 * (closed r).b22 *
      (closed r).r + 10 * (closed r).b22 ^ 2 - 20 * (closed r).b31 - 40 * (closed r).b31 * (closed r).p22 + 40 *
      (closed r).b44 * (closed r).r - 80 * (closed r).b55 + 20 / 3 * (closed r).p22 + 40 * (closed r).p44 + 30 *
      (closed r).q33 + 16 * (closed r).q55 = 0 := by
  simp only [closed]
  field_simp
  ring

theorem kin5 (r X Y : ℝ) : ((closed r).kinJ (cosM X) (sinM X Y)).a5 = 0 := by
  rw [kin_split5, kin_h5_0, kin_h5_2, kin_h5_4]
  ring

theorem dyn_split0 (A : Al) (X Y : ℝ) : (A.dynJ (cosM X) (sinM X Y)).a0 =
    (1 / 2) * X ^ 0 +
    Y ^ 2 * (0) := by
  simp only [Al.dynJ, Al.wJ, Al.uJ, Al.wT, Al.uT, Al.zJ, Al.dJ, Al.vJ, Al.pJ, Al.qJ, Jet.add, Jet.mul, Jet.scale,
      Jet.coshJ,
    Jet.sinhJ, Jet.one, cosM, sinM, mul_zero, zero_mul, add_zero, zero_add, mul_one, one_mul]
  push_cast
  ring

theorem dyn0 (r : ℝ) {X Y : ℝ} (h : X ^ 2 + Y ^ 2 = 1) : ((closed r).dynJ (cosM X) (sinM X Y)).a0 = 1 / 2 := by
  rw [dyn_split0, show Y ^ 2 = 1 - X ^ 2 by linarith]
  linear_combination 0

theorem dyn_split1 (A : Al) (X Y : ℝ) : (A.dynJ (cosM X) (sinM X Y)).a1 =
    0 +
    Y ^ 2 * (0) := by
  simp only [Al.dynJ, Al.wJ, Al.uJ, Al.wT, Al.uT, Al.zJ, Al.dJ, Al.vJ, Al.pJ, Al.qJ, Jet.add, Jet.mul, Jet.scale,
      Jet.coshJ,
    Jet.sinhJ, Jet.one, cosM, sinM, mul_zero, zero_mul, add_zero, zero_add, mul_one, one_mul]
  push_cast
  ring

theorem dyn1 (r : ℝ) {X Y : ℝ} (h : X ^ 2 + Y ^ 2 = 1) : ((closed r).dynJ (cosM X) (sinM X Y)).a1 = 0 := by
  rw [dyn_split1, show Y ^ 2 = 1 - X ^ 2 by linarith]
  linear_combination 0

theorem dyn_split2 (A : Al) (X Y : ℝ) : (A.dynJ (cosM X) (sinM X Y)).a2 =
    (-A.b22 * A.r + A.g2 + A.p22) * X ^ 0 + (-1 + 2 * A.b22 * A.r - 2 * A.p22 + 1 / 2 * A.r ^ 2) * X ^ 2 +
    Y ^ 2 * ((1 / 2) * X ^ 0) := by
  simp only [Al.dynJ, Al.wJ, Al.uJ, Al.wT, Al.uT, Al.zJ, Al.dJ, Al.vJ, Al.pJ, Al.qJ, Jet.add, Jet.mul, Jet.scale,
      Jet.coshJ,
    Jet.sinhJ, Jet.one, cosM, sinM, mul_zero, zero_mul, add_zero, zero_add, mul_one, one_mul]
  push_cast
  ring

theorem dyn_h2_0 (r : ℝ) :
    1 / 2 - (closed r).b22 * (closed r).r + (closed r).g2 + (closed r).p22 = (5 - 6 * r ^ 2 + 9 * r ^ 4) / (16) := by
  simp only [closed]
  field_simp
  ring

theorem dyn_h2_2 (r : ℝ) :
    -3 / 2 + 2 * (closed r).b22 * (closed r).r - 2 * (closed r).p22 + 1 / 2 * (closed r).r ^ 2 = 0 := by
  simp only [closed]
  field_simp
  ring

theorem dyn2 (r : ℝ) {X Y : ℝ} (h : X ^ 2 + Y ^ 2 = 1) : ((closed r).dynJ (cosM X) (sinM X Y)).a2 = (5 - 6 * r ^ 2 + 9
      * r ^ 4) / (16) := by
  rw [dyn_split2, show Y ^ 2 = 1 - X ^ 2 by linarith]
  linear_combination X ^ 0 * dyn_h2_0 r + X ^ 2 * dyn_h2_2 r

theorem dyn_split3 (A : Al) (X Y : ℝ) : (A.dynJ (cosM X) (sinM X Y)).a3 =
    (A.b22 + 4 * A.b31 * A.r - A.g2 * A.r - A.p22 * A.r - A.p31 + 3 * A.p33 + 2 * A.q22) * X ^ 1 + (-2 * A.b22 - 4 *
      A.b31 * A.r + 2 * A.p22 * A.r - 4 * A.p33 - 4 * A.q22 + 1 / 2 * A.r) * X ^ 3 +
    Y ^ 2 * ((2 * A.q22 + A.r) * X ^ 1) := by
  simp only [Al.dynJ, Al.wJ, Al.uJ, Al.wT, Al.uT, Al.zJ, Al.dJ, Al.vJ, Al.pJ, Al.qJ, Jet.add, Jet.mul, Jet.scale,
      Jet.coshJ,
    Jet.sinhJ, Jet.one, cosM, sinM, mul_zero, zero_mul, add_zero, zero_add, mul_one, one_mul]
  push_cast
  ring

theorem dyn_h3_1 (r : ℝ) :
    (closed r).b22 + 4 * (closed r).b31 * (closed r).r - (closed r).g2 * (closed r).r - (closed r).p22 * (closed r).r
      - (closed r).p31 + 3 * (closed r).p33 + 4 * (closed r).q22 + (closed r).r = 0 := by
  simp only [closed]
  field_simp
  ring

theorem dyn_h3_3 (r : ℝ) :
    -2 * (closed r).b22 - 4 * (closed r).b31 * (closed r).r + 2 * (closed r).p22 * (closed r).r - 4 * (closed r).p33 -
      6 * (closed r).q22 - 1 / 2 * (closed r).r = 0 := by
  simp only [closed]
  field_simp
  ring

theorem dyn3 (r : ℝ) {X Y : ℝ} (h : X ^ 2 + Y ^ 2 = 1) : ((closed r).dynJ (cosM X) (sinM X Y)).a3 = 0 := by
  rw [dyn_split3, show Y ^ 2 = 1 - X ^ 2 by linarith]
  linear_combination X ^ 1 * dyn_h3_1 r + X ^ 3 * dyn_h3_3 r

theorem dyn_split4 (A : Al) (X Y : ℝ) : (A.dynJ (cosM X) (sinM X Y)).a4 =
    (-2 * A.b22 * A.q22 - A.b42 * A.r + A.b44 * A.r + A.g2 * A.p22 + 1 / 2 * A.g2 ^ 2 + A.g4 + 1 / 2 * A.p22 ^ 2 +
      A.p42 - A.p44) * X ^ 0 + (8 * A.b22 * A.q22 - 4 * A.b31 + 2 * A.b42 * A.r - 8 * A.b44 * A.r - A.g2 - 2 * A.g2 *
      A.p22 + A.p22 - 2 * A.p22 ^ 2 + A.p31 * A.r - 3 * A.p33 * A.r - 2 * A.p42 + 8 * A.p44 - 2 * A.q22 * A.r - A.q31
      + 9 * A.q33) * X ^ 2 + (1 / 3 - 8 * A.b22 * A.q22 + 4 * A.b31 + 8 * A.b44 * A.r - 2 * A.p22 + 2 * A.p22 ^ 2 + 4
      * A.p33 * A.r - 8 * A.p44 + 4 * A.q22 * A.r - 12 * A.q33 + 1 / 2 * A.r ^ 2) * X ^ 4 +
    Y ^ 2 * ((-A.b22 * A.r + A.q31 - A.q33) * X ^ 0 + (1 / 2 + 2 * A.b22 * A.r + 4 * A.p22 + 2 * A.q22 * A.r + 2 *
      A.q22 ^ 2 + 4 * A.q33 + 1 / 2 * A.r ^ 2) * X ^ 2) := by
  simp only [Al.dynJ, Al.wJ, Al.uJ, Al.wT, Al.uT, Al.zJ, Al.dJ, Al.vJ, Al.pJ, Al.qJ, Jet.add, Jet.mul, Jet.scale,
      Jet.coshJ,
    Jet.sinhJ, Jet.one, cosM, sinM, mul_zero, zero_mul, add_zero, zero_add, mul_one, one_mul]
  push_cast
  ring

theorem dyn_h4_0 (r : ℝ) :
    -2 * (closed r).b22 * (closed r).q22 - (closed r).b22 * (closed r).r - (closed r).b42 * (closed r).r + (closed
      r).b44 * (closed r).r + (closed r).g2 * (closed r).p22 + 1 / 2 * (closed r).g2 ^ 2 + (closed r).g4 + 1 / 2 *
      (closed r).p22 ^ 2 + (closed r).p42 - (closed r).p44 + (closed r).q31 - (closed r).q33 = (33 + 55 * r ^ 2 - 1110
      * r ^ 4 + 1710 * r ^ 6 - 27 * r ^ 8 - 405 * r ^ 10) / (1024) := by
  simp only [closed]
  field_simp
  ring

theorem dyn_h4_2 (r : ℝ) :
    1 / 2 + 8 * (closed r).b22 * (closed r).q22 + 3 * (closed r).b22 * (closed r).r - 4 * (closed r).b31 + 2 * (closed
      r).b42 * (closed r).r - 8 * (closed r).b44 * (closed r).r - (closed r).g2 - 2 * (closed r).g2 * (closed r).p22 +
      5 * (closed r).p22 - 2 * (closed r).p22 ^ 2 + (closed r).p31 * (closed r).r - 3 * (closed r).p33 * (closed r).r
      - 2 * (closed r).p42 + 8 * (closed r).p44 + 2 * (closed r).q22 ^ 2 - 2 * (closed r).q31 + 14 * (closed r).q33 +
      1 / 2 * (closed r).r ^ 2 = 0 := by
  simp only [closed]
  field_simp
  ring

theorem dyn_h4_4 (r : ℝ) :
    -1 / 6 - 8 * (closed r).b22 * (closed r).q22 - 2 * (closed r).b22 * (closed r).r + 4 * (closed r).b31 + 8 *
      (closed r).b44 * (closed r).r - 6 * (closed r).p22 + 2 * (closed r).p22 ^ 2 + 4 * (closed r).p33 * (closed r).r
      - 8 * (closed r).p44 + 2 * (closed r).q22 * (closed r).r - 2 * (closed r).q22 ^ 2 - 16 * (closed r).q33 = 0 :=
      by
  simp only [closed]
  field_simp
  ring

theorem dyn4 (r : ℝ) {X Y : ℝ} (h : X ^ 2 + Y ^ 2 = 1) : ((closed r).dynJ (cosM X) (sinM X Y)).a4 = (33 + 55 * r ^ 2 -
      1110 * r ^ 4 + 1710 * r ^ 6 - 27 * r ^ 8 - 405 * r ^ 10) / (1024) := by
  rw [dyn_split4, show Y ^ 2 = 1 - X ^ 2 by linarith]
  linear_combination X ^ 0 * dyn_h4_0 r + X ^ 2 * dyn_h4_2 r + X ^ 4 * dyn_h4_4 r

theorem dyn_split5 (A : Al) (X Y : ℝ) : (A.dynJ (cosM X) (sinM X Y)).a5 =
    (A.b22 * A.g2 - 3 * A.b22 * A.p22 + 2 * A.b22 * A.q22 * A.r + A.b22 * A.q31 - 9 * A.b22 * A.q33 - 1 / 2 * A.b22 ^
      2 * A.r + 8 * A.b31 * A.q22 + A.b42 - A.b44 - 4 * A.b53 * A.r + 4 * A.b55 * A.r - A.g2 * A.p31 + 3 * A.g2 *
      A.p33 + 2 * A.g2 * A.q22 - A.g4 * A.r - A.p22 * A.p31 + 3 * A.p22 * A.p33 + 2 * A.p22 * A.q22 - A.p42 * A.r +
      A.p44 * A.r - A.p51 + 3 * A.p53 - 5 * A.p55 + 2 * A.q42 - 4 * A.q44) * X ^ 1 + (-1 / 2 * A.b22 - 2 * A.b22 *
      A.g2 + 12 * A.b22 * A.p22 - 8 * A.b22 * A.q22 * A.r - 2 * A.b22 * A.q31 + 30 * A.b22 * A.q33 - A.b22 * A.r ^ 2 +
      2 * A.b22 ^ 2 * A.r - 24 * A.b31 * A.q22 - 2 * A.b42 + 8 * A.b44 + 4 * A.b53 * A.r - 20 * A.b55 * A.r - 4 * A.g2
      * A.p33 - 4 * A.g2 * A.q22 - 1 / 2 * A.g2 * A.r + 2 * A.p22 * A.p31 - 10 * A.p22 * A.p33 - 8 * A.p22 * A.q22 - 5
      / 2 * A.p22 * A.r + 1 / 2 * A.p31 + 21 / 2 * A.p33 + 2 * A.p42 * A.r - 8 * A.p44 * A.r - 4 * A.p53 + 20 * A.p55
      - 2 / 3 * A.q22 + A.q31 * A.r - 9 * A.q33 * A.r - 4 * A.q42 + 32 * A.q44) * X ^ 3 + (A.b22 - 12 * A.b22 * A.p22
      + 8 * A.b22 * A.q22 * A.r - 24 * A.b22 * A.q33 + 2 * A.b22 * A.r ^ 2 - 2 * A.b22 ^ 2 * A.r + 16 * A.b31 * A.q22
      - 8 * A.b44 + 16 * A.b55 * A.r + 8 * A.p22 * A.p33 + 8 * A.p22 * A.q22 + 5 * A.p22 * A.r - 14 * A.p33 + 8 *
      A.p44 * A.r - 16 * A.p55 + 4 / 3 * A.q22 + 12 * A.q33 * A.r - 32 * A.q44 + 5 / 8 * A.r) * X ^ 5 +
    Y ^ 2 * ((-A.b22 - 4 * A.b22 * A.p22 - 2 * A.b22 * A.q22 * A.r - A.b22 * A.r ^ 2 + 4 * A.b31 * A.r + A.p31 - 3 *
      A.p33 + 2 * A.q22 * A.q31 - 2 * A.q22 * A.q33 + A.q31 * A.r - A.q33 * A.r + 2 * A.q42 - 4 * A.q44) * X ^ 1 + (2
      * A.b22 + 8 * A.b22 * A.p22 + 4 * A.b22 * A.q22 * A.r + 2 * A.b22 * A.r ^ 2 - 4 * A.b31 * A.r + 8 * A.p22 *
      A.q22 + 4 * A.p22 * A.r + 12 * A.p33 + 5 * A.q22 + 8 * A.q22 * A.q33 + 4 * A.q33 * A.r + 8 * A.q44 + 2 / 3 *
      A.r) * X ^ 3) := by
  simp only [Al.dynJ, Al.wJ, Al.uJ, Al.wT, Al.uT, Al.zJ, Al.dJ, Al.vJ, Al.pJ, Al.qJ, Jet.add, Jet.mul, Jet.scale,
      Jet.coshJ,
    Jet.sinhJ, Jet.one, cosM, sinM, mul_zero, zero_mul, add_zero, zero_add, mul_one, one_mul]
  push_cast
  ring

theorem dyn_h5_1 (r : ℝ) :
    -(closed r).b22 + (closed r).b22 * (closed r).g2 - 7 * (closed r).b22 * (closed r).p22 + (closed r).b22 * (closed
      r).q31 - 9 * (closed r).b22 * (closed r).q33 - (closed r).b22 * (closed r).r ^ 2 - 1 / 2 * (closed r).b22 ^ 2 *
      (closed r).r + 8 * (closed r).b31 * (closed r).q22 + 4 * (closed r).b31 * (closed r).r + (closed r).b42 -
      (closed r).b44 - 4 * (closed r).b53 * (closed r).r + 4 * (closed r).b55 * (closed r).r - (closed r).g2 * (closed
      r).p31 + 3 * (closed r).g2 * (closed r).p33 + 2 * (closed r).g2 * (closed r).q22 - (closed r).g4 * (closed r).r
      - (closed r).p22 * (closed r).p31 + 3 * (closed r).p22 * (closed r).p33 + 2 * (closed r).p22 * (closed r).q22 +
      (closed r).p31 - 3 * (closed r).p33 - (closed r).p42 * (closed r).r + (closed r).p44 * (closed r).r - (closed
      r).p51 + 3 * (closed r).p53 - 5 * (closed r).p55 + 2 * (closed r).q22 * (closed r).q31 - 2 * (closed r).q22 *
      (closed r).q33 + (closed r).q31 * (closed r).r - (closed r).q33 * (closed r).r + 4 * (closed r).q42 - 8 *
      (closed r).q44 = 0 := by
  simp only [closed]
  field_simp
  ring

theorem dyn_h5_3 (r : ℝ) :
    5 / 2 * (closed r).b22 - 2 * (closed r).b22 * (closed r).g2 + 24 * (closed r).b22 * (closed r).p22 - 2 * (closed
      r).b22 * (closed r).q22 * (closed r).r - 2 * (closed r).b22 * (closed r).q31 + 30 * (closed r).b22 * (closed
      r).q33 + 2 * (closed r).b22 * (closed r).r ^ 2 + 2 * (closed r).b22 ^ 2 * (closed r).r - 24 * (closed r).b31 *
      (closed r).q22 - 8 * (closed r).b31 * (closed r).r - 2 * (closed r).b42 + 8 * (closed r).b44 + 4 * (closed
      r).b53 * (closed r).r - 20 * (closed r).b55 * (closed r).r - 4 * (closed r).g2 * (closed r).p33 - 4 * (closed
      r).g2 * (closed r).q22 - 1 / 2 * (closed r).g2 * (closed r).r + 2 * (closed r).p22 * (closed r).p31 - 10 *
      (closed r).p22 * (closed r).p33 + 3 / 2 * (closed r).p22 * (closed r).r - 1 / 2 * (closed r).p31 + 51 / 2 *
      (closed r).p33 + 2 * (closed r).p42 * (closed r).r - 8 * (closed r).p44 * (closed r).r - 4 * (closed r).p53 + 20
      * (closed r).p55 + 13 / 3 * (closed r).q22 - 2 * (closed r).q22 * (closed r).q31 + 10 * (closed r).q22 * (closed
      r).q33 - 4 * (closed r).q33 * (closed r).r - 6 * (closed r).q42 + 44 * (closed r).q44 + 2 / 3 * (closed r).r = 0
      := by
  simp only [closed]
  field_simp
  ring

theorem dyn_h5_5 (r : ℝ) :
    -(closed r).b22 - 20 * (closed r).b22 * (closed r).p22 + 4 * (closed r).b22 * (closed r).q22 * (closed r).r - 24 *
      (closed r).b22 * (closed r).q33 - 2 * (closed r).b22 ^ 2 * (closed r).r + 16 * (closed r).b31 * (closed r).q22 +
      4 * (closed r).b31 * (closed r).r - 8 * (closed r).b44 + 16 * (closed r).b55 * (closed r).r + 8 * (closed r).p22
      * (closed r).p33 + (closed r).p22 * (closed r).r - 26 * (closed r).p33 + 8 * (closed r).p44 * (closed r).r - 16
      * (closed r).p55 - 11 / 3 * (closed r).q22 - 8 * (closed r).q22 * (closed r).q33 + 8 * (closed r).q33 * (closed
      r).r - 40 * (closed r).q44 - 1 / 24 * (closed r).r = 0 := by
  simp only [closed]
  field_simp
  ring

theorem dyn5 (r : ℝ) {X Y : ℝ} (h : X ^ 2 + Y ^ 2 = 1) : ((closed r).dynJ (cosM X) (sinM X Y)).a5 = 0 := by
  rw [dyn_split5, show Y ^ 2 = 1 - X ^ 2 by linarith]
  linear_combination X ^ 1 * dyn_h5_1 r + X ^ 3 * dyn_h5_3 r + X ^ 5 * dyn_h5_5 r

end AmrWind.Waves
