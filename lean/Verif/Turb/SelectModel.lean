import Mathlib.Data.List.Basic

/-!
# Selection of the turbulence model and the transport model

`CFDSim.cpp` (`create_transport_model`, `create_turbulence_model`), `turbulence/TurbModelDefs.H`, `turbulence/TurbModel.H`,
`core/Factory.H`, `incflo.cpp`.  Names are lists of characters.  What a constructor does apart from choosing its class is not
modelled here.
-/

namespace AmrWind.Select

/-- Names in the input. -/
abbrev Name := List Char

/-- The classes that are registered: names of turbulence models, and of the transport models each is instantiated for. -/
structure Registry where
  turb : List Name
  trans : List Name

/-- LaminarModel.H:17-20 and the same in each model: `identifier`, the name, a hyphen, the name of the transport model. -/
def key (t m : Name) : Name := t ++ '-' :: m

/-- TurbModelDefs.H:10-14: each turbulence model is registered once with each transport model, under its `identifier`. -/
def Registry.table (r : Registry) : List (Name × Name × Name) :=
  r.turb.flatMap fun t => r.trans.map fun m => (key t m, t, m)

/-- Factory.H:71-78, 131-146 `create` of a turbulence model: the class found under the key, `none` if the run is stopped. -/
def Registry.createTurb (r : Registry) (k : Name) : Option (Name × Name) := (r.table.find? fun e => e.1 = k).map (·.2)

/-- Factory.H:71-78, 131-146 `create` of a transport model. -/
def Registry.createTrans (r : Registry) (k : Name) : Option Name := r.trans.find? (· = k)

/-- CFDSim.cpp:28-32, 39-44: default of the transport model. -/
def dfltTrans : Name := "ConstTransport".toList

/-- CFDSim.cpp:40, 45-48: default of the turbulence model. -/
def dfltTurb : Name := "Laminar".toList

/-- CFDSim.cpp:26-35, then 37-54 (incflo.cpp:443-450): the transport model of the simulation; the turbulence model and the
transport model it makes for itself (TurbModel.H:22).  `inT` and `inM` are `turbulence.model` and `transport.model`, `none` where
the input has none. -/
def Registry.start (r : Registry) (inT inM : Option Name) : Option (Name × Name × Name) :=
  (r.createTrans (inM.getD dfltTrans)).bind fun m =>
    (r.createTurb (key (inT.getD dfltTurb) (inM.getD dfltTrans))).map fun c => (m, c)

/-- The registered classes: LaminarModel.cpp:110, AMDNoTherm.cpp:77, Kosovic.cpp:246, AMD.cpp:161, Smagorinsky.cpp:80,
OneEqKsgs.cpp:318-319, KOmegaSSTIDDES.cpp:346, KLAxell.cpp:365, KOmegaSST.cpp:345; ConstTransport.H:20, TwoPhaseTransport.H:22. -/
def code : Registry where
  turb := ["Laminar".toList, "AMDNoTherm".toList, "Kosovic".toList, "AMD".toList, "Smagorinsky".toList, "OneEqKsgsM84".toList,
    "OneEqKsgsS94".toList, "KOmegaSSTIDDES".toList, "KLAxell".toList, "KOmegaSST".toList]
  trans := ["ConstTransport".toList, "TwoPhaseTransport".toList]

end AmrWind.Select
