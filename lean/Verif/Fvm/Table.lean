/-
The coefficients of all stencils, transcribed from amr-wind/fvm/stencils.H.
-/
import Verif.Fvm.Model
import Mathlib.Tactic.NormNum
import Mathlib.Algebra.Order.Ring.Rat

namespace AmrWind.Fvm

/-- One structure of stencils.H: the coefficients of the first and second derivative and of the filter in the three directions, and the
layers whose intersection is its box: direction, and whether at the high end. -/
structure Row where
  name : String
  first : List (Coef ℚ)
  second : List (Coef ℚ)
  filter : List (Coef ℚ)
  layers : List (Fin 3 × Bool)

/-- stencils.H:114-154 `StencilInterior`. -/
def rowInterior : Row where
  name := "Interior"
  first := [⟨1 / 2, 0, -(1 / 2)⟩, ⟨1 / 2, 0, -(1 / 2)⟩, ⟨1 / 2, 0, -(1 / 2)⟩]
  second := [⟨1, -2, 1⟩, ⟨1, -2, 1⟩, ⟨1, -2, 1⟩]
  filter := [⟨1 / 4, 1 / 2, 1 / 4⟩, ⟨1 / 4, 1 / 2, 1 / 4⟩, ⟨1 / 4, 1 / 2, 1 / 4⟩]
  layers := []

/-- stencils.H:156-195 `StencilILO`. -/
def rowILO : Row where
  name := "ILO"
  first := [⟨1 / 3, 1, -(4 / 3)⟩, ⟨1 / 2, 0, -(1 / 2)⟩, ⟨1 / 2, 0, -(1 / 2)⟩]
  second := [⟨4 / 3, -4, 8 / 3⟩, ⟨1, -2, 1⟩, ⟨1, -2, 1⟩]
  filter := [⟨1 / 8, 5 / 8, 1 / 4⟩, ⟨1 / 4, 1 / 2, 1 / 4⟩, ⟨1 / 4, 1 / 2, 1 / 4⟩]
  layers := [(0, false)]

/-- stencils.H:197-236 `StencilJLO`. -/
def rowJLO : Row where
  name := "JLO"
  first := [⟨1 / 2, 0, -(1 / 2)⟩, ⟨1 / 3, 1, -(4 / 3)⟩, ⟨1 / 2, 0, -(1 / 2)⟩]
  second := [⟨1, -2, 1⟩, ⟨4 / 3, -4, 8 / 3⟩, ⟨1, -2, 1⟩]
  filter := [⟨1 / 4, 1 / 2, 1 / 4⟩, ⟨1 / 8, 5 / 8, 1 / 4⟩, ⟨1 / 4, 1 / 2, 1 / 4⟩]
  layers := [(1, false)]

/-- stencils.H:238-277 `StencilKLO`. -/
def rowKLO : Row where
  name := "KLO"
  first := [⟨1 / 2, 0, -(1 / 2)⟩, ⟨1 / 2, 0, -(1 / 2)⟩, ⟨1 / 3, 1, -(4 / 3)⟩]
  second := [⟨1, -2, 1⟩, ⟨1, -2, 1⟩, ⟨4 / 3, -4, 8 / 3⟩]
  filter := [⟨1 / 4, 1 / 2, 1 / 4⟩, ⟨1 / 4, 1 / 2, 1 / 4⟩, ⟨1 / 8, 5 / 8, 1 / 4⟩]
  layers := [(2, false)]

/-- stencils.H:279-318 `StencilIHI`. -/
def rowIHI : Row where
  name := "IHI"
  first := [⟨4 / 3, -1, -(1 / 3)⟩, ⟨1 / 2, 0, -(1 / 2)⟩, ⟨1 / 2, 0, -(1 / 2)⟩]
  second := [⟨8 / 3, -4, 4 / 3⟩, ⟨1, -2, 1⟩, ⟨1, -2, 1⟩]
  filter := [⟨1 / 4, 5 / 8, 1 / 8⟩, ⟨1 / 4, 1 / 2, 1 / 4⟩, ⟨1 / 4, 1 / 2, 1 / 4⟩]
  layers := [(0, true)]

/-- stencils.H:320-359 `StencilJHI`. -/
def rowJHI : Row where
  name := "JHI"
  first := [⟨1 / 2, 0, -(1 / 2)⟩, ⟨4 / 3, -1, -(1 / 3)⟩, ⟨1 / 2, 0, -(1 / 2)⟩]
  second := [⟨1, -2, 1⟩, ⟨8 / 3, -4, 4 / 3⟩, ⟨1, -2, 1⟩]
  filter := [⟨1 / 4, 1 / 2, 1 / 4⟩, ⟨1 / 4, 5 / 8, 1 / 8⟩, ⟨1 / 4, 1 / 2, 1 / 4⟩]
  layers := [(1, true)]

/-- stencils.H:361-400 `StencilKHI`. -/
def rowKHI : Row where
  name := "KHI"
  first := [⟨1 / 2, 0, -(1 / 2)⟩, ⟨1 / 2, 0, -(1 / 2)⟩, ⟨4 / 3, -1, -(1 / 3)⟩]
  second := [⟨1, -2, 1⟩, ⟨1, -2, 1⟩, ⟨8 / 3, -4, 4 / 3⟩]
  filter := [⟨1 / 4, 1 / 2, 1 / 4⟩, ⟨1 / 4, 1 / 2, 1 / 4⟩, ⟨1 / 4, 5 / 8, 1 / 8⟩]
  layers := [(2, true)]

/-- stencils.H:402-440 `StencilIloJlo`. -/
def rowIloJlo : Row where
  name := "IloJlo"
  first := [⟨1 / 3, 1, -(4 / 3)⟩, ⟨1 / 3, 1, -(4 / 3)⟩, ⟨1 / 2, 0, -(1 / 2)⟩]
  second := [⟨4 / 3, -4, 8 / 3⟩, ⟨4 / 3, -4, 8 / 3⟩, ⟨1, -2, 1⟩]
  filter := [⟨1 / 8, 5 / 8, 1 / 4⟩, ⟨1 / 8, 5 / 8, 1 / 4⟩, ⟨1 / 4, 1 / 2, 1 / 4⟩]
  layers := [(0, false), (1, false)]

/-- stencils.H:442-480 `StencilJloKlo`. -/
def rowJloKlo : Row where
  name := "JloKlo"
  first := [⟨1 / 2, 0, -(1 / 2)⟩, ⟨1 / 3, 1, -(4 / 3)⟩, ⟨1 / 3, 1, -(4 / 3)⟩]
  second := [⟨1, -2, 1⟩, ⟨4 / 3, -4, 8 / 3⟩, ⟨4 / 3, -4, 8 / 3⟩]
  filter := [⟨1 / 4, 1 / 2, 1 / 4⟩, ⟨1 / 8, 5 / 8, 1 / 4⟩, ⟨1 / 8, 5 / 8, 1 / 4⟩]
  layers := [(1, false), (2, false)]

/-- stencils.H:482-520 `StencilIloKlo`. -/
def rowIloKlo : Row where
  name := "IloKlo"
  first := [⟨1 / 3, 1, -(4 / 3)⟩, ⟨1 / 2, 0, -(1 / 2)⟩, ⟨1 / 3, 1, -(4 / 3)⟩]
  second := [⟨4 / 3, -4, 8 / 3⟩, ⟨1, -2, 1⟩, ⟨4 / 3, -4, 8 / 3⟩]
  filter := [⟨1 / 8, 5 / 8, 1 / 4⟩, ⟨1 / 4, 1 / 2, 1 / 4⟩, ⟨1 / 8, 5 / 8, 1 / 4⟩]
  layers := [(0, false), (2, false)]

/-- stencils.H:522-560 `StencilIhiJhi`. -/
def rowIhiJhi : Row where
  name := "IhiJhi"
  first := [⟨4 / 3, -1, -(1 / 3)⟩, ⟨4 / 3, -1, -(1 / 3)⟩, ⟨1 / 2, 0, -(1 / 2)⟩]
  second := [⟨8 / 3, -4, 4 / 3⟩, ⟨8 / 3, -4, 4 / 3⟩, ⟨1, -2, 1⟩]
  filter := [⟨1 / 4, 5 / 8, 1 / 8⟩, ⟨1 / 4, 5 / 8, 1 / 8⟩, ⟨1 / 4, 1 / 2, 1 / 4⟩]
  layers := [(0, true), (1, true)]

/-- stencils.H:562-600 `StencilJhiKhi`. -/
def rowJhiKhi : Row where
  name := "JhiKhi"
  first := [⟨1 / 2, 0, -(1 / 2)⟩, ⟨4 / 3, -1, -(1 / 3)⟩, ⟨4 / 3, -1, -(1 / 3)⟩]
  second := [⟨1, -2, 1⟩, ⟨8 / 3, -4, 4 / 3⟩, ⟨8 / 3, -4, 4 / 3⟩]
  filter := [⟨1 / 4, 1 / 2, 1 / 4⟩, ⟨1 / 4, 5 / 8, 1 / 8⟩, ⟨1 / 4, 5 / 8, 1 / 8⟩]
  layers := [(1, true), (2, true)]

/-- stencils.H:602-640 `StencilIhiKhi`. -/
def rowIhiKhi : Row where
  name := "IhiKhi"
  first := [⟨4 / 3, -1, -(1 / 3)⟩, ⟨1 / 2, 0, -(1 / 2)⟩, ⟨4 / 3, -1, -(1 / 3)⟩]
  second := [⟨8 / 3, -4, 4 / 3⟩, ⟨1, -2, 1⟩, ⟨8 / 3, -4, 4 / 3⟩]
  filter := [⟨1 / 4, 5 / 8, 1 / 8⟩, ⟨1 / 4, 1 / 2, 1 / 4⟩, ⟨1 / 4, 5 / 8, 1 / 8⟩]
  layers := [(0, true), (2, true)]

/-- stencils.H:642-680 `StencilIloJhi`. -/
def rowIloJhi : Row where
  name := "IloJhi"
  first := [⟨1 / 3, 1, -(4 / 3)⟩, ⟨4 / 3, -1, -(1 / 3)⟩, ⟨1 / 2, 0, -(1 / 2)⟩]
  second := [⟨4 / 3, -4, 8 / 3⟩, ⟨8 / 3, -4, 4 / 3⟩, ⟨1, -2, 1⟩]
  filter := [⟨1 / 8, 5 / 8, 1 / 4⟩, ⟨1 / 4, 5 / 8, 1 / 8⟩, ⟨1 / 4, 1 / 2, 1 / 4⟩]
  layers := [(0, false), (1, true)]

/-- stencils.H:682-720 `StencilJloKhi`. -/
def rowJloKhi : Row where
  name := "JloKhi"
  first := [⟨1 / 2, 0, -(1 / 2)⟩, ⟨1 / 3, 1, -(4 / 3)⟩, ⟨4 / 3, -1, -(1 / 3)⟩]
  second := [⟨1, -2, 1⟩, ⟨4 / 3, -4, 8 / 3⟩, ⟨8 / 3, -4, 4 / 3⟩]
  filter := [⟨1 / 4, 1 / 2, 1 / 4⟩, ⟨1 / 8, 5 / 8, 1 / 4⟩, ⟨1 / 4, 5 / 8, 1 / 8⟩]
  layers := [(1, false), (2, true)]

/-- stencils.H:722-760 `StencilIloKhi`. -/
def rowIloKhi : Row where
  name := "IloKhi"
  first := [⟨1 / 3, 1, -(4 / 3)⟩, ⟨1 / 2, 0, -(1 / 2)⟩, ⟨4 / 3, -1, -(1 / 3)⟩]
  second := [⟨4 / 3, -4, 8 / 3⟩, ⟨1, -2, 1⟩, ⟨8 / 3, -4, 4 / 3⟩]
  filter := [⟨1 / 8, 5 / 8, 1 / 4⟩, ⟨1 / 4, 1 / 2, 1 / 4⟩, ⟨1 / 4, 5 / 8, 1 / 8⟩]
  layers := [(0, false), (2, true)]

/-- stencils.H:762-800 `StencilIhiJlo`. -/
def rowIhiJlo : Row where
  name := "IhiJlo"
  first := [⟨4 / 3, -1, -(1 / 3)⟩, ⟨1 / 3, 1, -(4 / 3)⟩, ⟨1 / 2, 0, -(1 / 2)⟩]
  second := [⟨8 / 3, -4, 4 / 3⟩, ⟨4 / 3, -4, 8 / 3⟩, ⟨1, -2, 1⟩]
  filter := [⟨1 / 4, 5 / 8, 1 / 8⟩, ⟨1 / 8, 5 / 8, 1 / 4⟩, ⟨1 / 4, 1 / 2, 1 / 4⟩]
  layers := [(0, true), (1, false)]

/-- stencils.H:802-840 `StencilJhiKlo`. -/
def rowJhiKlo : Row where
  name := "JhiKlo"
  first := [⟨1 / 2, 0, -(1 / 2)⟩, ⟨4 / 3, -1, -(1 / 3)⟩, ⟨1 / 3, 1, -(4 / 3)⟩]
  second := [⟨1, -2, 1⟩, ⟨8 / 3, -4, 4 / 3⟩, ⟨4 / 3, -4, 8 / 3⟩]
  filter := [⟨1 / 4, 1 / 2, 1 / 4⟩, ⟨1 / 4, 5 / 8, 1 / 8⟩, ⟨1 / 8, 5 / 8, 1 / 4⟩]
  layers := [(1, true), (2, false)]

/-- stencils.H:842-880 `StencilIhiKlo`. -/
def rowIhiKlo : Row where
  name := "IhiKlo"
  first := [⟨4 / 3, -1, -(1 / 3)⟩, ⟨1 / 2, 0, -(1 / 2)⟩, ⟨1 / 3, 1, -(4 / 3)⟩]
  second := [⟨8 / 3, -4, 4 / 3⟩, ⟨1, -2, 1⟩, ⟨4 / 3, -4, 8 / 3⟩]
  filter := [⟨1 / 4, 5 / 8, 1 / 8⟩, ⟨1 / 4, 1 / 2, 1 / 4⟩, ⟨1 / 8, 5 / 8, 1 / 4⟩]
  layers := [(0, true), (2, false)]

/-- stencils.H:882-921 `StencilIloJloKlo`. -/
def rowIloJloKlo : Row where
  name := "IloJloKlo"
  first := [⟨1 / 3, 1, -(4 / 3)⟩, ⟨1 / 3, 1, -(4 / 3)⟩, ⟨1 / 3, 1, -(4 / 3)⟩]
  second := [⟨4 / 3, -4, 8 / 3⟩, ⟨4 / 3, -4, 8 / 3⟩, ⟨4 / 3, -4, 8 / 3⟩]
  filter := [⟨1 / 8, 5 / 8, 1 / 4⟩, ⟨1 / 8, 5 / 8, 1 / 4⟩, ⟨1 / 8, 5 / 8, 1 / 4⟩]
  layers := [(0, false), (1, false), (2, false)]

/-- stencils.H:923-962 `StencilIloJhiKlo`. -/
def rowIloJhiKlo : Row where
  name := "IloJhiKlo"
  first := [⟨1 / 3, 1, -(4 / 3)⟩, ⟨4 / 3, -1, -(1 / 3)⟩, ⟨1 / 3, 1, -(4 / 3)⟩]
  second := [⟨4 / 3, -4, 8 / 3⟩, ⟨8 / 3, -4, 4 / 3⟩, ⟨4 / 3, -4, 8 / 3⟩]
  filter := [⟨1 / 8, 5 / 8, 1 / 4⟩, ⟨1 / 4, 5 / 8, 1 / 8⟩, ⟨1 / 8, 5 / 8, 1 / 4⟩]
  layers := [(0, false), (1, true), (2, false)]

/-- stencils.H:964-1003 `StencilIhiJloKlo`. -/
def rowIhiJloKlo : Row where
  name := "IhiJloKlo"
  first := [⟨4 / 3, -1, -(1 / 3)⟩, ⟨1 / 3, 1, -(4 / 3)⟩, ⟨1 / 3, 1, -(4 / 3)⟩]
  second := [⟨8 / 3, -4, 4 / 3⟩, ⟨4 / 3, -4, 8 / 3⟩, ⟨4 / 3, -4, 8 / 3⟩]
  filter := [⟨1 / 4, 5 / 8, 1 / 8⟩, ⟨1 / 8, 5 / 8, 1 / 4⟩, ⟨1 / 8, 5 / 8, 1 / 4⟩]
  layers := [(0, true), (1, false), (2, false)]

/-- stencils.H:1005-1044 `StencilIhiJhiKlo`. -/
def rowIhiJhiKlo : Row where
  name := "IhiJhiKlo"
  first := [⟨4 / 3, -1, -(1 / 3)⟩, ⟨4 / 3, -1, -(1 / 3)⟩, ⟨1 / 3, 1, -(4 / 3)⟩]
  second := [⟨8 / 3, -4, 4 / 3⟩, ⟨8 / 3, -4, 4 / 3⟩, ⟨4 / 3, -4, 8 / 3⟩]
  filter := [⟨1 / 4, 5 / 8, 1 / 8⟩, ⟨1 / 4, 5 / 8, 1 / 8⟩, ⟨1 / 8, 5 / 8, 1 / 4⟩]
  layers := [(0, true), (1, true), (2, false)]

/-- stencils.H:1046-1085 `StencilIloJloKhi`. -/
def rowIloJloKhi : Row where
  name := "IloJloKhi"
  first := [⟨1 / 3, 1, -(4 / 3)⟩, ⟨1 / 3, 1, -(4 / 3)⟩, ⟨4 / 3, -1, -(1 / 3)⟩]
  second := [⟨4 / 3, -4, 8 / 3⟩, ⟨4 / 3, -4, 8 / 3⟩, ⟨8 / 3, -4, 4 / 3⟩]
  filter := [⟨1 / 8, 5 / 8, 1 / 4⟩, ⟨1 / 8, 5 / 8, 1 / 4⟩, ⟨1 / 4, 5 / 8, 1 / 8⟩]
  layers := [(0, false), (1, false), (2, true)]

/-- stencils.H:1087-1126 `StencilIloJhiKhi`. -/
def rowIloJhiKhi : Row where
  name := "IloJhiKhi"
  first := [⟨1 / 3, 1, -(4 / 3)⟩, ⟨4 / 3, -1, -(1 / 3)⟩, ⟨4 / 3, -1, -(1 / 3)⟩]
  second := [⟨4 / 3, -4, 8 / 3⟩, ⟨8 / 3, -4, 4 / 3⟩, ⟨8 / 3, -4, 4 / 3⟩]
  filter := [⟨1 / 8, 5 / 8, 1 / 4⟩, ⟨1 / 4, 5 / 8, 1 / 8⟩, ⟨1 / 4, 5 / 8, 1 / 8⟩]
  layers := [(0, false), (1, true), (2, true)]

/-- stencils.H:1128-1167 `StencilIhiJloKhi`. -/
def rowIhiJloKhi : Row where
  name := "IhiJloKhi"
  first := [⟨4 / 3, -1, -(1 / 3)⟩, ⟨1 / 3, 1, -(4 / 3)⟩, ⟨4 / 3, -1, -(1 / 3)⟩]
  second := [⟨8 / 3, -4, 4 / 3⟩, ⟨4 / 3, -4, 8 / 3⟩, ⟨8 / 3, -4, 4 / 3⟩]
  filter := [⟨1 / 4, 5 / 8, 1 / 8⟩, ⟨1 / 8, 5 / 8, 1 / 4⟩, ⟨1 / 4, 5 / 8, 1 / 8⟩]
  layers := [(0, true), (1, false), (2, true)]

/-- stencils.H:1169-1208 `StencilIhiJhiKhi`. -/
def rowIhiJhiKhi : Row where
  name := "IhiJhiKhi"
  first := [⟨4 / 3, -1, -(1 / 3)⟩, ⟨4 / 3, -1, -(1 / 3)⟩, ⟨4 / 3, -1, -(1 / 3)⟩]
  second := [⟨8 / 3, -4, 4 / 3⟩, ⟨8 / 3, -4, 4 / 3⟩, ⟨8 / 3, -4, 4 / 3⟩]
  filter := [⟨1 / 4, 5 / 8, 1 / 8⟩, ⟨1 / 4, 5 / 8, 1 / 8⟩, ⟨1 / 4, 5 / 8, 1 / 8⟩]
  layers := [(0, true), (1, true), (2, true)]

/-- The structures of stencils.H. -/
def table : List Row :=
  [rowInterior, rowILO, rowJLO, rowKLO, rowIHI, rowJHI,
   rowKHI, rowIloJlo, rowJloKlo, rowIloKlo, rowIhiJhi, rowJhiKhi,
   rowIhiKhi, rowIloJhi, rowJloKhi, rowIloKhi, rowIhiJlo, rowJhiKlo,
   rowIhiKlo, rowIloJloKlo, rowIloJhiKlo, rowIhiJloKlo, rowIhiJhiKlo, rowIloJloKhi,
   rowIloJhiKhi, rowIhiJloKhi, rowIhiJhiKhi]
/-- The kind of a direction for these layers. -/
def kindOf (l : List (Fin 3 × Bool)) (d : Fin 3) : Kind := if (d, false) ∈ l then .lo else if (d, true) ∈ l then .hi else .mid

/-- The stencil that the model uses for the structure. -/
def Row.sten (r : Row) : Sten := ⟨kindOf r.layers 0, kindOf r.layers 1, kindOf r.layers 2⟩

instance : DecidableEq (Coef ℚ) := fun a b =>
  if h : a.p = b.p ∧ a.c = b.c ∧ a.m = b.m then isTrue (by cases a; cases b; simp_all) else isFalse (by rintro rfl; exact h ⟨rfl, rfl, rfl⟩)

/-- C79: each of the 27 structures has in every direction the coefficients that its box calls for, and for every combination of interior,
low and high ends there is exactly one structure. -/
theorem table_spec : (∀ r ∈ table,
      r.first = [r.sten.x.first, r.sten.y.first, r.sten.z.first] ∧ r.second = [r.sten.x.second, r.sten.y.second, r.sten.z.second] ∧
      r.filter = [r.sten.x.filter, r.sten.y.filter, r.sten.z.filter] ∧ (r.layers.map Prod.fst).Nodup) ∧
    (table.map Row.sten).Nodup ∧ ∀ s : Sten, s ∈ table.map Row.sten := by
  refine ⟨by decide +kernel, by decide +kernel, ?_⟩
  rintro ⟨x, y, z⟩
  cases x <;> cases y <;> cases z <;> decide +kernel

/-- C79: the operators apply every structure: the interior one first, then the others. -/
theorem order_complete (s : Sten) : s ∈ ⟨.mid, .mid, .mid⟩ :: order := by
  obtain ⟨x, y, z⟩ := s
  cases x <;> cases y <;> cases z <;> decide +kernel

/-- C79: weights of a quadratic field `a + b t + c t²` at the centre (`t = 0`) of a cell of width 1 whose neighbours are the next cell centre,
or the face at a boundary: every structure gives the derivatives `b` and `2 c` exactly, and its filter keeps constants. -/
theorem table_exact (a b c : ℚ) : ∀ r ∈ table, ∀ d : Fin 3,
    let hi : ℚ := if (d, true) ∈ r.layers then 1 / 2 else 1
    let lo : ℚ := if (d, false) ∈ r.layers then -(1 / 2) else -1
    let q : ℚ → ℚ := fun t => a + b * t + c * t ^ 2
    ∃ w v f, r.first[d]? = some w ∧ r.second[d]? = some v ∧ r.filter[d]? = some f ∧ w.sum (q hi) (q 0) (q lo) = b ∧ v.sum (q hi) (q 0) (q lo) = 2 * c ∧
      f.sum a a a = a := by
  intro r hr d
  have h : ∀ r ∈ table, ∀ d : Fin 3, ∃ w v f, r.first[d]? = some w ∧ r.second[d]? = some v ∧ r.filter[d]? = some f ∧
      ((((d, true) ∈ r.layers → (d, false) ∉ r.layers ∧ w = Kind.hi.first ∧ v = Kind.hi.second ∧ f = Kind.hi.filter)) ∧
      ((d, false) ∈ r.layers → (d, true) ∉ r.layers ∧ w = Kind.lo.first ∧ v = Kind.lo.second ∧ f = Kind.lo.filter) ∧
      ((d, true) ∉ r.layers → (d, false) ∉ r.layers → w = Kind.mid.first ∧ v = Kind.mid.second ∧ f = Kind.mid.filter)) := by
    intro r hr d
    have e : ∀ r ∈ table, ∀ d : Fin 3, r.first[d]? = some (kindOf r.layers d).first ∧ r.second[d]? = some (kindOf r.layers d).second ∧
        r.filter[d]? = some (kindOf r.layers d).filter ∧ ¬ ((d, true) ∈ r.layers ∧ (d, false) ∈ r.layers) := by decide +kernel
    obtain ⟨e1, e2, e3, e4⟩ := e r hr d
    refine ⟨_, _, _, e1, e2, e3, ?_, ?_, ?_⟩
    · intro h; have n : (d, false) ∉ r.layers := fun k => e4 ⟨h, k⟩
      simp [kindOf, h, n]
    · intro h; have n : (d, true) ∉ r.layers := fun k => e4 ⟨k, h⟩
      simp [kindOf, h, n]
    · intro h k; simp [kindOf, h, k]
  obtain ⟨w, v, f, e1, e2, e3, h1, h2, h3⟩ := h r hr d
  refine ⟨w, v, f, e1, e2, e3, ?_⟩
  by_cases p : (d, true) ∈ r.layers
  · obtain ⟨n, rfl, rfl, rfl⟩ := h1 p
    simp only [p, n, if_true, if_false, Coef.sum, Kind.first, Kind.second, Kind.filter]
    refine ⟨by ring, by ring, by ring⟩
  · by_cases n : (d, false) ∈ r.layers
    · obtain ⟨_, rfl, rfl, rfl⟩ := h2 n
      simp only [p, n, if_true, if_false, Coef.sum, Kind.first, Kind.second, Kind.filter]
      refine ⟨by ring, by ring, by ring⟩
    · obtain ⟨rfl, rfl, rfl⟩ := h3 p n
      simp only [p, n, if_false, Coef.sum, Kind.first, Kind.second, Kind.filter]
      refine ⟨by ring, by ring, by ring⟩

end AmrWind.Fvm
