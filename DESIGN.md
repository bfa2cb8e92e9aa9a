# Formal model of Exawind/amr-wind in Lean 4

The source under `/repo/amr-wind` is read as text. It is never built or run here. The model lives in
`lean/Verif/`: for each area one or more *model* files (definitions citing the C++ they model), and
*theorem* files (property theorems, with helper lemmas kept apart where they are long). Beside the theorems
are `example`s with concrete cases that meet their hypotheses.

## Trusted base

* Lean 4.33.0's kernel and the axioms `propext`, `Classical.choice`, `Quot.sound` (list at the end). No other
  axiom, no `sorry`, no `native_decide`/`bv_decide`.
* The reading of the C++: each definition cites file and lines. The code was not executed.
* Arithmetic: `amrex::Real` is modelled by an exact ordered field (a generic `K`, or `ℝ` where
  `sqrt`, `exp`, `tanh`, `log`, angles occur). Rounding, overflow, NaN and infinities are **not** modelled. A
  division by zero is never relied on: it is a hypothesis or an explicit error outcome (`none`).
* `int` is modelled by unbounded `Int`/`Nat`; C++ `%` by `Int.tmod` (truncating), C++ `/` on ints by
  `Int.tdiv`. `atan2(y, x)` is `Complex.arg (x + i y)`.
* AMReX is outside the repository. What the model assumes of it, where used:
  * `ParallelFor` applies its lambda once per cell of the box, in any order; `MFIter` visits each box once (or each
    tile once), the tiles of a box partition it; `makeFineMask` is 0 exactly on cells covered by the finer level;
  * `Geometry`, `Box`, `BoxArray::intersections`, `Box::refine/coarsen` have their index arithmetic;
  * `ParmParse::query/get/queryarr/getarr/contains` look a name up by full name; a shorter array overwrites only
    its own length where the code passes an existing vector;
  * reductions over ranks (`ReduceRealSum`, `MPI_Allreduce`) are exact sums, maxima and minima;
  * particle `Redistribute` keeps each particle with a valid id inside the domain on exactly one rank and drops the rest;
  * `FillPatch`/`average_down` are used through the stated values of ghost and covered cells only.
* `amrex::Abort` and failed `AMREX_ALWAYS_ASSERT` are an explicit outcome (`none`/`Except.error`);
  out-of-range reads are an explicit outcome too (`none`), never a default value.

## What is modelled, and what is not

| area (`lean/Verif/…`) | code modelled | not modelled |
|---|---|---|
| `SimTime` | core/SimTime (time loop, dt control, outputs, regrid) | log output |
| `PostProc` | utilities/PostProcessing.H/.cpp output schedule | the post-processing classes' own work |
| `Field` | core/FieldRepo, Field states, mesh mapping transforms of fields | memory, ghost filling |
| `Interp` | utilities/linear_interpolation.H | |
| `Vs` | core/vs vectors, tensors, rotations | |
| `Tag` | utilities/index_operations, utilities/tagging | AMReX clustering |
| `Averaging` | utilities/averaging (time and Reynolds averages) | file output |
| `IO` | utilities/IOManager, DerivedQuantity, io_utils.H, subvolume, restart time data | plotfile format |
| `Vof` | equation_systems/vof kernels (PLIC, split advection, debris) | overset |
| `Plane` | utilities/FieldPlaneAveraging, Second/ThirdMomentAveraging, fine variants | |
| `Waves` | ocean_waves relaxation zones, linear and Stokes waves | HOS/W2A file reading |
| `ChanMap` | mesh_mapping_models | |
| `Mix` | physics/multiphase mixture density, level set to volume fraction, hydrostatic reference state | the pressure solve |
| `Amr` | composite sums, norms, diagnostics, energies over refinement hierarchies | |
| `Config` | core/MultiParser, CollMgr, Factory, BCInterface, Dirichlet, inflow-outflow and fixed-gradient ghost cells | |
| `Udf` | physics/udfs profiles | user-defined custom functions |
| `Sampling` | utilities/sampling: samplers, particles, buffers, interpolation, free surface | NetCDF and native writers, lidar, spinner |
| `Abl` | wind_energy/MOData, ShearStress, wall functions | ABL statistics files |
| `Fvm` | fvm: stencils, their application to tiles, all operators | |
| `Src` | momentum and temperature sources: mesoscale, Coriolis, geostrophic, ABL, hurricane, body, buoyancy, damping, nudging, met masts, terrain drag, forests | actuator, VOF and synthetic sources; reading of NetCDF files |
| `Turb` | viscosities, productions, dissipations, lengths and steps of all LES and RANS models; transport of energy and omega in one cell | ghost cells, advection and diffusion of energy and omega (linear solver), wall distance |
| `Pde` | right-hand sides of predictor and corrector, diffusion terms and solves of one component, boundary kinds, face viscosities | convergence of the multigrid solver (solves are exact), coarse-fine faces |
| `Select` | `Turb/SelectModel.lean`, `Turb/SelectProps.lean` | choice of turbulence and transport model by name; constructors are not modelled here |
| `Win` | `Field/SliceModel.lean`, `Field/SliceProps.lean` | slices of arrays and their use by actuators; an access outside of the array is undefined |
| `Hscript` | `Tools/HeaderModel.lean`, `Tools/HeaderProps.lean` | the script that writes headers of boundary planes; files of data are a function of field and side |
| `IO` | `IO/AscentModel.lean`, `IO/AscentProps.lean` | fields handed to Ascent; conversion of the mesh and Ascent are not modelled |
| `Iscript` | `Tools/InflowModel.lean`, `Tools/InflowProps.lean` | preparation of a run with inflow and outflow; netCDF, the text of numbers and printed warnings are not modelled; that the last value of a name counts is ParmParse's |
| `Cscript` | `Tools/ConvModel.lean`, `Tools/ConvProps.lean` | comparison of particle files, conversion of HDF5 plotfiles; formats of files and rounding are not modelled |
| `Sscript` | `Tools/SampleModel.lean`, `Tools/SampleProps.lean` | scripts that make tables from native samples; integers beyond the numbers of a particle are not modelled |
| `Bscript` | `Tools/ScriptModel.lean`, `Tools/ScriptProps.lean`, `Tools/ScriptRefine.lean` | scripts that make and refine boundary planes; the parsing of inputs and the text of files are not modelled |
| `Tools` | `Tools/Model.lean`, `Tools/ChkProps.lean`, `Tools/FileProps.lean` | programs in `tools/utilities` that change, compare or convert files; formats of files, more than one process and scripts are not modelled |
| `Wio` | `Actuator/WindIOModel.lean`, `Actuator/WindIOProps.lean` | structure of a turbine from the tables of its description (`KynemaIface.cpp:66-382`); the YAML reader is not modelled |
| `Eff` | `Turb/EffModel.lean`, `Turb/EffProps.lean` | effective coefficients of diffusion and their values on faces (`LaminarModel.cpp`, `TurbModelBase.H`, `update_alphaeff` and `update_scalar_diff` of all models, `incflo_diffusion.cpp`) |
| `Prog` | `Field/ProgModel.lean`, `Field/ProgProps.lean` | sequences of loops, fills and reductions (`Smagorinsky.cpp`, `KineticEnergy.cpp`, `Kosovic.cpp` as such) |
| `ActOut` | `Actuator/HistoryModel.lean`, `Actuator/HistoryProps.lean` | histories of actuators (`wing/wing_ops.{H,cpp}`, `Joukowsky_ops.{H,cpp}`, `disk/disk_ops.{H,cpp}`, `turbine/turbine_utils.cpp`, `Actuator.cpp` outputs) |
| `Fill` | `Field/FillModel.lean`, `Field/FillProps.lean` | ghost cells (`core/Field.cpp`, `core/FieldFillPatchOps.H`, `core/FieldBCOps.H`) |
| `FieldOps` | `Field/OpsModel.lean`, `Field/OpsProps.lean` | operations on whole fields (`core/field_ops.H`) |
| `Steady` | `Pde/SteadyModel.lean`, `Pde/SteadyProps.lean` | a whole time step with the form of its operators; the corrector; states in balance |
| `Expl` | `Pde/ExplModel.lean`, `Pde/ExplProps.lean` (and `Step`: `Pde/StepExist.lean`) | explicit diffusion with the chosen time step; solvability of implicit diffusion |
| `Hist` | `Regrid/HistModel.lean`, `Regrid/HistSpec.lean`, `Regrid/HistProps.lean`, `Regrid/HistTable.lean` | start, checkpoint, restart, change of the mesh |
| `Regrid` | `Regrid/Model.lean`, `Regrid/Spec.lean`, `Regrid/Props.lean`, `Regrid/Flux.lean` | changes of the mesh, fluxes between levels |
| `Waves` | `Waves/Jet.lean`, `Waves/StokesAlgebra.lean`, `Waves/StokesClosed.lean`, `Waves/StokesProps.lean` | conditions at the free surface |
| `Bplane` | `Abl/PlaneModel.lean`, `Abl/PlaneProps.lean` | recorded boundary planes, native format |
| `Cfl` | `SimTime/CflModel.lean`, `SimTime/CflProps.lean` | the numbers that limit the time step |
| `Nc` | `IO/NcModel.lean`, `IO/NcProps.lean` | the NetCDF interface |
| `Mph` | `Phys/TwoPhaseModel.lean`, `Phys/TwoPhaseProps.lean` | life of a two-phase run, transport of density and level set |
| `Mms` | `Phys/MmsModel.lean`, `Phys/MmsProps.lean` | manufactured solutions |
| `Airfoil` | `Actuator/AirfoilModel.lean`, `Actuator/AirfoilProps.lean` | airfoil tables |
| `Solver` | `Config/SolverModel.lean`, `Config/SolverProps.lean` | MLMGOptions and where it is used |
| `Small` | `Phys/SmallModel.lean`, `Phys/SmallProps.lean` | turb_utils, FreeStream, ActuatorSourceTagging, PerturbationForcing, HybridRANSLESABL |

| `Iter` | `prepare_time_step`, `advance`, `ApplyPredictor`, `ApplyPrescribeStep`, `InitialIterations`, `do_advance`, `print_nonlinear_residual` | the operators (parameters), `ApplyCorrector` (parameter), ghost cells, mesh mapping, overset |
| `Kyn` | `kynema_types.H`, `update_turbine` and the matrices in `KynemaIface.cpp`, units in `turbine_kynema_ops.H` | the structural solver (parameter), single precision; reading of WindIO files is `Wio` |
| `Cosim` | `helics.cpp`, `helics.H`, `Actuator::communicate_turbine_io`, received and reported angles in `ABL.cpp`, `ABLModulatedPowerLaw.cpp`, `uniform_ct_ops.H`, `Joukowsky_ops.H` | the HELICS library, `atof` and number formatting (parameters), start-up of the federation |
| `Inflow` | `core/FieldFillPatchOps.H` (inflow), `icns_advection.cpp` and `incflo_apply_nodal_projection.cpp` in part | interpolation between levels, exchange of ghost cells, boundary files and waves (elsewhere) |
| `Subvol` | `utilities/subvolume/*` | split into chunks, file format, ghost cells, derived fields |
| `Start` | `setup/init.cpp`, `incflo.cpp` (start, loop, files), `main.cpp` in part | what a step does to the fields (any function), post-processing, overset runs, ghost cells, mesh creation |
| `W2a` | `waves2amr_ops.H`, `W2AWaves.H`, times of `OceanWaves.cpp` | the library Waves2AMR (`time2step` by its requirement, records and spatial interpolation by a function), averaging down, the choice of heights and zones of a rank |
| `Wbc` | `ocean_waves/boundary_ops`, `OceanWaves.cpp`, `vof_bciface.H` | the wave models that fill the targets (C41, C58, C59), interpolation between levels, the method-of-lines scheme |
| `Ext` | `turbine/external`, `turbine/fast`, `turbine_utils.cpp` | the turbine solver itself, single precision, messages between ranks, NetCDF calls, Kynema's own interface |
| `Beam` | `LidarSampler`, `DTUSpinnerSampler`, `RadarSampler`, `spherical_cap_quadrature` | NetCDF calls, broadcast of turbine data, debug output |
| `Tag` (FieldModel) | the other files of `utilities/tagging/` | filling of ghost cells |
| `Ib` | `immersed_boundary/` | empty operators (forces, motion, output), ghost cells |
| `Nodal` | `incflo_apply_nodal_projection.cpp` | the linear solver (parameter), immersed boundary and overset masks, ghost cells |
| `Syn` | `SyntheticTurbulence` and its source term | reading the input, the NetCDF library (a read out of range aborts) |
| `Case` | velocities and initial states of 14 benchmark cases | the projection that follows, the Poisson solve of the vortex rings (its solution is a hypothesis), random numbers |
| `Exact` | exact solutions and error logs of Taylor vortex, Ekman spiral, Burggraf cavity, channel | the solver that is compared with them |
| `Adv` | advection operators of scalars and momentum, average of fluxes to coarser levels, fluxes of the method of lines, mass-consistent fluxes, coefficients of the MAC projection | reconstructions of AMReX-Hydro, slopes of AMReX, linear solvers |
| `Overset` | masks, sharpening (fluxes, time step, loop, pressure source), gradient replacement, patch numbers, offsets of fields | TIOGA, MPI reductions, host and device copies, `calcGradPhi` |
| `Abl/Bndry` | recorded inflow planes: steps, values, NetCDF layout, reading and interpolation in time | file formats, headers, `erf-multiblock` |
| `Abl/Stats` | height of the boundary layer, output steps, subgrid stresses, rows of profiles, text files | NetCDF library, mesoscale columns |
| `Abl/Init`, `Abl/Mpl` | initial profiles, perturbations, velocity file, modulated power law | random numbers (arbitrary values), boxes of boundary cells (C67) |
| `Phys` | equation of state, anelastic reference column, constant and two-phase transport | NaN of negative temperature (excluded), parallel copies |
| `Actuator` | wind_energy/actuator: FLLC, disks, spreading, wings, ranks and sampling | OpenFAST/Kynema coupling |

The linear solvers, the Godunov and MOL advection of momentum, the turbulence closures, MPI itself and file-system effects
are left out, except where a row names them.

## Property plan

| id | what is modelled | how it is proved |
|----|------------------|------------------|
| C01 | `get_enforced_dt_for_output` | direct floor arithmetic |
| C02 | `set_current_cfl` whole function, `ℝ` with `sqrt` | each reduction only lowers dt; case split |
| C03, C04, C06, C07 | time loop `new_timestep; set_current_cfl; advance_time` as a state machine over a list of CFL inputs | invariants by induction over the list |
| C05 | same | false of the code: counterexample proved; partial theorem when the growth limit is inactive |
| C08, C11 | `write_plot_file`, `write_last_*`, `do_regrid` | `Int` arithmetic, counting by induction |
| C09, C10 | time-based branch of the same functions | floor arithmetic; C10 false after restart: counterexample and partial theorem |
| C12, C13 | `populate_output_parameters`, `do_output_now`, `PostProcessManager`, `parse_parameters` | decision logic; trace of outputs by induction |
| C14, C15 | field registry as state machine | invariant by induction over declarations; C15 partial (old-state names) |
| C16, C17 | `advance_states`, mesh-map transforms | list/state lemmas, field algebra |
| C18–C22 | `linear_interpolation.H` | loop invariants (well-founded recursion), order arguments |
| C23, C37, C38 | index operations, refinement criteria | floor/ceil arithmetic, inner-product bounds |
| C24–C26 | averaging update as a fold | induction over samples |
| C27–C31 | I/O managers as pure functions on lists | list induction; C30 and C31 false of the code: counterexamples, partial theorems |
| C32–C36 | VOF kernels and sweeps | real arithmetic per cell, telescoping sums |
| C39, C40, C53–C56 | plane averaging, moments, fine planes | sums over lists of boxes, tilings; C40, C55 false of the code |
| C41–C43 | scalar kernels, mesh maps | real analysis |
| C44–C46 | parsing and registries | decision logic, induction |
| C47, C57 | per-rank reductions of velocity extremes | list folds |
| C48, C70–C72 | samplers, particles, buffers, interpolation, free surface | partitions, permutations of particles, trilinear algebra |
| C49, C73 | MOData iteration, wall models | well-founded loop, calculus, means over lists |
| C50, C74 | filtered lifting line correction | loop invariants, continuity, induction over calls |
| C51, C52 | rotations | algebra |
| C58–C61 | relaxation zones, dispersion relation, Stokes waves | calculus, Newton iteration as a recursion |
| C62, C63 | hydrostatic reference state, level set to volume fraction | node/cell algebra, integrals |
| C64–C66 | composite sums over hierarchies, norms, wave energy | induction over levels |
| C67–C69 | Dirichlet values, inflow-outflow, profiles | decision logic over faces, algebra |
| C75, C76 | actuator disks and spreading kernels | finite sums, trigonometric sums, integrals over ℝ |
| C77 | wings | induction over histories of steps, frames |
| C78 | ranks of actuators, sampling container | invariants over the list of actuators, permutations |
| C79 | finite volume operators | induction over stencils and tiles, exactness for quadratics, matrix identities |
| C80 | mesoscale profile assimilation | inverse of the 4x4 normal matrix, minimality and uniqueness from the normal equations, case analysis of the options |
| C81 | momentum sources | vector identities, trigonometry, induction over rows and records |
| C82 | buoyancy and damping | ordered field reasoning, continuity of the damping weight, case analysis |
| C83 | terrain drag, sponges and the temperature next to terrain | case analysis of the cell functions, one step of the update in an ordered field, witnesses over the reals |
| C84 | forests | bounds of the profile, linearity of the quadrature, induction over the lines of the file |
| C85 | subgrid models | algebra of the velocity gradient: invariance under orthogonal matrices, Cauchy-Schwarz, monotone powers |
| C86 | one-equation RANS model | rational functions of the Richardson number, ordering of square roots, one step of the source |
| C87 | k-omega SST and IDDES | range of tanh, ordering, fixed points of the step for each kind of diffusion |
| C88 | equation of state, reference column, transport | powers of reals, Bernoulli's inequality for the tangent, invariant of the Newton iteration, induction over cells |
| C89 | one step of a transport equation | cellwise algebra of the right-hand sides, quadratic form of the operator, extremal cells |
| C90 | wall functions of channels | convexity of x log x, invariant of the Newton loop, signs |
| C91 | initial state of an atmospheric run | induction over the table, telescoping sum of cosines, index arithmetic |
| C92 | modulated power law | interval integrals of powers and of tanh, induction over steps |
| C93 | statistics of the boundary layer | invariants of the scans, permutation of columns, moments of C55, induction over steps |
| C94 | recorded inflow planes | invariant of the planes held over any sequence of reads, injectivity of the flat index |
| C95 | overset masks | loops over neighbours reduced to quantifiers |
| C96 | sharpening of the received free surface | telescoping sums over any set of cells that holds the received region; invariant of the pseudo-time loop |
| C97 | overset coupling | counting of boxes per rank by induction over the list; state machine of the host copies |
| C98 | advection terms on refined meshes | telescoping sums over boxes, induction over the levels: the averaged fluxes of a covered cell give the rate of the fine cells in it |
| C99 | schemes, fluxes of the method of lines, fluxes near a free surface | case analysis; independence of the tile from what the slopes look at |
| C100 | projection of the face velocities | algebra over all combinations of options |
| C101 | formulas of the four cases | spec: partial derivatives as `HasDerivAt` on all of space and time, incompressible Navier-Stokes as equality of functions; the derivatives are unique, so the statement does not depend on the choice of witnesses |
| C102 | loops that add up the error | `Amr.total_from`: sums over ranks and boxes with masks are sums over uncovered cells |
| C103 | formulas of the prescribed velocities, faces and cells; the curl stencil of the rings | `HasDerivAt` for divergence; Picard-Lindelöf and uniqueness for trajectories; Gaussian integrals for circulation |
| C104 | pulse formulas with `erf` as an integral | spec: `cellMean`, the interval integral over the cell divided by its size |
| C105 | level sets, pressures and densities of the initial states | spec: the set of points in words of coordinates |
| C106 | indices and weights, planes in memory, force per cell, histories of steps and regrids | invariant: the planes in memory are those of their indices, no force outside the box; spec: periodic trilinear function of the file; Gaussian integral; fundamental theorem for the stream |
| C107 | all algebra of the projection around the solver, table of boundary conditions | field algebra for all modes at once; linearity of the divergence; a concrete two-cell projector as instance |
| C108 | level sets and masks of the shapes, folds over the bodies, velocity update, projection with bodies | union by induction over the list; geometry by inequalities; the projection through C107 |
| C109 | all criteria on field values, their manager | thresholds by case analysis; difference formulas exact for polynomials; union by induction over the criteria |
| C110 | `LidarSampler`, with the interpolation and the line of C18 and C48 | case analysis, table lemmas, counterexamples |
| C111 | `DTUSpinnerSampler`: clock, pattern, attitude | induction over the places of an update and over the updates; rotations and reflections keep lengths |
| C112 | `RadarSampler`, quadrature of `SamplingUtils`, line of sight in `Sampling` | closed form of the sweep; induction over lists of weights; Rodrigues' formula |
| C113 | `turbine/external`, `turbine_utils.cpp`: points, exchange buffer, nacelle, rotor frame, box | arithmetic of slices; list indexing; algebra of the frame; bounds |
| C114 | `ExtTurbIface`, `FastIface`: the solver known by the sequence of its calls | induction over the steps of a run; floor arithmetic |
| C115 | `OceanWavesBoundary`, `OceanWavesFillInflow`, times of `OceanWaves`, `vof_bciface.H` | box arithmetic; disjointness of the layers beyond the faces; loop over faces |
| C116 | `evaluate_read_resize`, `populate_fields_all_levels`, `time_interpolate_wave_fields`, `UpdateTargetFieldsOp<W2AWaves>` for one cell; offsets on all ranks | invariant of the update, telescoping closed form, induction over the updates; induction over the reads on the ranks |
| C117 | `CheckAndSetUpDryRun`, `ReadParameters` in part, `prepare_for_time_integration`, `Evolve` as a list of events, `InitialIterations` | last value of a table, decision logic, induction over the steps (through the time manager), invariant of the iterations |
| C118 | `RectangularSubvolume::initialize`, `evaluate_inputs`, what `Subvolume` writes | error bounds of rounding, first index with a property, induction over regrids |
| C119 | `FieldFillPatchOps::set_inflow`, `set_inflow_sibling_fields`, `MacProjOp::set_inflow_velocity`, ghost cells before the nodal projection | a loop over the sides of which at most one acts on an index; geometry of boxes |
| C120 | `tokenize`, `HelicsStorage`, `communicate_turbine_io`, users of wind and yaw angles | parsing inverse to writing (induction over fields), queues between ranks (induction over turbines), induction over steps, trigonometry |
| C121 | index maps and buffers of `kynema_types.H`, `update_turbine`, section and hub matrices, units of inputs | induction over bodies (both directions), invariants of conditional writes, induction over substeps and steps against a coupled history, matrix identities |
| C122 | the order of operators in `ApplyPredictor`, `ApplyPrescribeStep`, `InitialIterations`, `do_advance` with arbitrary operators, `print_nonlinear_residual` | frame lemmas for every operator, induction over scalars, iterations and steps; counterexamples by concrete operators |
| C123 | initial scalar, exact solution and error of the two cases | derivative of the distance from the moving centre along paths is zero, reuse of the paths of C103 and the composite sums of C102 |
| C124 | the ordered set of names, the input dictionary, the two maps of the repository, the tracer, the perturbation of a cell and the hybrid rate | induction over the lists; case analysis; real arithmetic with the model of C85 |
| C125 | the options as a function of their names, reading with one or two prefixes, and what each kind of solve is told | the fold over the list of options sets each from its own key; case analysis on the names |
| C126 | a file as lines of words, the two readers with the failure states of a stream, and the look-up in the table | induction over the rows written; the theorems on interpolation |
| C127 | the multiphase object from construction on, with the order of physics and equations at start, step and regrid; null pointers and aborts as outcomes | invariant over all event sequences; case analysis of the start |
| C128 | parameters, filling of the source at start and regrid, composite error, log | invariant over all event sequences; the theorems on composite sums |
| C129 | the wrapper function by function over a small model of the library: dimensions with an unlimited one, variables as functions of indices, groups | laws of reading and writing; induction over the rows of a series; frame lemmas for definitions |
| C130 | `compute_dt` and `compute_prescribe_dt` cell by cell, reduction over boxes, levels and ranks, then `set_current_cfl` | greatest element of the set of all rates; algebra of the quadratic limit over the reals |
| C131 | boxes of the registers, headers and their checks, components of the fields, directory of records over a history of runs | geometry of hulls; equivalence of the check with agreement along the face; induction over fields and runs |
| C132 | the Stokes wave of `Waves`, coefficients as in the code | expansions in the steepness with remainders uniform in the phase (`Waves/Jet.lean`); the coefficients as polynomials in coth kd (`Waves/StokesClosed.lean`); identities of the two conditions order by order (`Waves/StokesAlgebra.lean`) |
| C133 | levels as sets of refined cells with all arrays, the level operations of the repository, any interpolation; averaged fluxes and their divergence | induction over levels and over sequences of changes (`Regrid/Props.lean`); telescoping sums (`Regrid/Flux.lean`) |
| C134 | start, checkpoint, restart and change of the mesh on the levels of C133, actions of the physics as parameters; a table of the fields that follow from the input | induction over histories (`Regrid/HistProps.lean`), the table in `Regrid/HistTable.lean` |
| C135 | explicit diffusion of a scalar on any set of cells with the time step of C02 and C130 | convex combinations; growth of single modes (`Pde/ExplProps.lean`) |
| C136 | whole steps of C122 with the operators in the form of the code (fluxes, sources, right-hand sides, corrector) | invariant over scalars, iterations and steps (`Pde/SteadyProps.lean`) |
| C137 | fields as functions of level, box, cell and component; the loops of `field_ops.H` with their regions, component by component, also when source and destination are one array; reductions over cells, boxes, levels, ranks | values after each operation inside and outside the region, induction over components (`Field/OpsProps.lean`) |
| C138 | the filling of one level (AMReX) by its contract: copies from boxes of the level and their periodic images, interpolation from the filled coarse level, then the sides of the domain; the loop over levels of `Field::fillpatch` and `fillphysbc` | the value of every ghost cell as a function of position and of the data of cells only, hence independent of boxes and order; induction over lists of levels (`Field/FillProps.lean`) |
| C139 | definitions of dimensions and variables per kind, the writes of one record, the decision by frequency, the directory per starting step; the file by the model of `Nc` | rows by induction over the parts of a record and over records; runs by induction over steps; restarts by splitting ranges (`Actuator/HistoryProps.lean`) |
| C140 | a small language of loops, fills, reductions and scalar arithmetic with its run on boxes and ranks, and a check of known ghost layers; parts of the solver written in it | an agreement of states on two layouts is kept by every statement that passes the check (fills by C138, reductions by permutation of disjoint cells), induction over sequences; two cuttings of a channel as counterexample (`Field/ProgProps.lean`) |
| C141 | the updates of `mu_turb` and of the effective coefficient of an equation by every model, with the part of the arrays each of them writes, over sequences of steps; the coefficients on faces | invariant over steps: arrays agree with the cells of all boxes (fills by C138); for the forgotten ghost cells the invariant that they stay zero (`Turb/EffProps.lean`) |
| C142 | the loops of `KynemaIface.cpp` over the tables of the file with reads beyond the end as a separate outcome; mass matrices of nacelle and yaw bearing | lists place by place; kinetic energy of any finite set of particles against the quadratic forms of the matrices; witnesses for tables at different places (`Actuator/WindIOProps.lean`) |
| C143 | checks, levels and averages of `coarsen-chkpt`; tags, new values and levels written by `refine-chkpt` | sums over blocks of cells by induction; induction over levels for means; round trip |
| C144 | masks, means of the reference, both measures of `compareMultilevelToReference` | lists of differences; equivalence with agreement in uncovered cells; witnesses |
| C145 | loops of rows, columns, reading of levels by `CheckpointToCSV`, `PlotfileToCSV` | membership and no duplicates for nested loops over disjoint boxes |
| C146 | boxes, sizes, bounds and coordinates made by `native_boundary_plane.py` and `amrex_plotfile.py` | induction over levels; exact condition on ratios; composition with the reading of planes (C131) |
| C147 | refinement of boxes and bounds, interpolation to finer cells | relation of files to meshes kept by refinement; linearity of interpolation; composition with the reading of planes |
| C148 | loading of particles, tables of samplers, order of directories, rows of time series | permutations and folds with distinct numbers; order of text against order of numbers by induction on digits |
| C149 | sorting by number, sums of squares without what is not a number, tests of both tolerances | each term is at most the sum; sorted permutations with distinct numbers are equal |
| C150 | check of boxes, offsets of variables and boxes, order of attributes | induction on boxes; order of text on digits |
| C151 | window, means, file of the profile and its reader, lines added, the last value of a name | sums over filtered lists; induction on the lines of the input file |
| C152 | loop over names, columns copied on each level, check for names given twice | induction on the list of fields, as for plot files |
| C153 | names split at underscores, paths, product of fields and sides, look-up of times | induction on characters, on the list of planes and on the table |
| C154 | offsets modulo 2^64, reads and writes through slices, loops over the actuators of a rank | induction on the points written and on the list of actuators |
| C155 | joined names as lists of characters, the table of registered classes, the two look-ups | induction on the name up to the hyphen |

## Disagreements between code and property

Each line: what the English property asks and the code does not do. Unless marked *(read)*, the disagreement is a
theorem with a concrete witness; the theorem is in the list of the property in MANIFEST.json.

* **C05** false in general: the growth limit after an output-shortened step triggers the abort (witness proved)
* **C06** bookkeeping holds always; positivity fails with delay_time>0 and initial_dt unset (proved)
* **C08** schedule proved; the final file is missing when the run ends before the delay (witness proved)
* **C09** false for varying steps with the dt-relative tolerance (witness proved)
* **C10** false after a restart at a time that is not a multiple of the interval (witness proved)
* **C15** a reserved name that spells an existing time state is accepted (witness proved)
* **C17** the transforms are inverse and the flag is right for any call sequence; copying between time states does not copy the flag, and fields with more than 3 components index out of range (both proved)
* **C24** false for adaptive steps with averaging from the start of the run (not finite, proved), less than one time unit after it, and across a restart (proved)
* **C25** false when two groups ask for the same average or add_averaging is called twice (proved)
* **C26** all six stresses, and the matrix positive semidefinite, for the runs of C24; false for a restarted adaptive run, where a variance becomes negative just if the present value is far enough from the mean (adaptive_restart_stress)
* **C27** everything is read back, but the present step size is not put back into the time state: with an adaptive step the restarted run differs (proved)
* **C30** false with two fields: the component counter is not advanced (proved)
* **C31** false after filter: stored positions are not adjusted (proved)
* **C32** range holds for all histories; the debris half is false: the in-place loop can leave isolated cells (only below the threshold), and it reads stale ghost cells (both proved)
* **C35** exact without the guard constant; with it the volume is within tiny/4 and not monotone (proved)
* **C36** exact without the guard constant; with it the error is at most four cube roots of it and not zero (proved)
* **C38** false for left-handed box axes and for a user function with box_lo/box_hi: both proved; exact otherwise
* **C40** false of the code: the accessor reads the array of velocity averages (counterexample and exact description of what it returns proved); the other accessors are correct
* **C42** Holds for every stretching (either sign), level, cell, node and face when prob_hi_physical is absent or equal to prob_hi. With another prob_hi_physical the coordinates use one length and the factors the other: physical_length_not_reached, physical_length_factor.
* **C45** scalars and all get functions proved; false for array queries when the specific list is shorter than the default one: the tail of the default remains (witness proved)
* **C48** line, probe and volume samplers are proved; the claim that an accepted plane lies in the domain is false (only three corners are checked, plane_fourth_corner) and a volume never reaches its high corner (volume_misses_hi)
* **C52** the property is false of the code; both theorems are refutations
* **C55** the stored moments are right; the accessor is wrong for unequal numbers of components and refuses the last plane (proved)
* **C56** the tiling is derived from nesting of the levels; the bound by the extreme values fails next to a wall in a coarse cell (proved)
* **C57** values proved; the place is proved when one cell alone has the extreme value; with ties the coordinates may come from different cells (proved)
* **C58** false of the code for the velocity of cells that gain liquid: it passes the target by up to the whole difference (proved)
* **C60** false of the code: no wavelength is found for periods above 8.9 s with the linear relation (proved for all depths); the accepted residual mixes the constants of two iterates; for the orders four and five the slope of Newton's method lacks a factor (`newton_constants`)
* **C61** false of the code in deep water: the cap on the hyperbolic arguments makes the velocity independent of depth (proved)
* **C63** Proved when the cut-off distance is at least half the variation of the level set in the cell (always so for a signed distance on cubes). False for flat cells (cutoff_loses_volume) and next to blanked cells (blanked_neighbour_wrong).
* **C65** proved for cell-centred fields on every hierarchy and for face and node fields on one level; false of the code for face fields on refined meshes (the norm of a constant depends on the boxes) and for the infinity norm of face and node fields (mask read outside its cells)
* **C66** the sums are exact; the reported value for still water is g times the water level, zero only if the water level is zero (proved)
* **C67** true with constant values; a function named on one inflow face replaces the values given on all others (proved)
* **C69** false in parts: the Rankine profile is 0/0 in a cell centred on the vortex, its default start ignores the given radius, two-layer drops the vertical velocity (proved)
* **C72** proved for planes given from low to high, one instance and no more points per cell than max_sample_points_per_cell; false otherwise: reversed_plane, cap_drops_points, instances_scrambled; a full column reports a point outside the domain (full_column)
* **C73** stress and flux proved for the constant, local, Schumann and Moeng types; Donelan's heat flux has the opposite sign (donelan_theta_sign); the mol type is 0/0 for a cell without wind (mol_no_wind)
* **C74** interpolation at the force points proved for blades whose distance from the domain origin grows along the blade; false otherwise, blade_down_wrong
* **C75** points, weights, means, thrust and power proved for all disks; the bounding box contains only disks aligned with an axis (yawed_box_empty), some bad inputs are accepted
* **C76** proved for rings at least one spacing from the centre and for the Gaussian kernels; the innermost ring gains 1/24, the turbine disk applies the tower once per blade and uses the square of the spacing, cells outside the box get force or not depending on tiles
* **C77** points, widths, motion, frames and section forces proved; false for one point (one_point_undefined), for kernel widths of wings along z (vertical_wing_swaps), for ranks joining after a regrid and restarts (stale_rank, restart_loses_motion), for the search radius of chords below one (short_chord_cuts) and the box of a negative amplitude (negative_amplitude_box)
* **C78** ranks, roots and values proved for points inside the domain on ranks that own a box; points outside receive zero silently (outside_zero), so does a root without boxes (root_without_boxes); an unknown label yields the first actuator (unknown_label)
* **C79** proved for domains of two cells or more across walls; a thinner one gets a wrong stencil (thin_wrong); the Laplacian takes one component per direction (laplacian_wrong); two components of the non-linear stress use wrong derivatives (nonlinear_wrong) and its divergence reads ghost cells nobody filled (nonlinear_stress_ghosts); the curvature is 0/0 where the gradient vanishes
* **C80** least squares, weights, blending and relaxation proved for temperature; false for momentum with non-uniform weights, where each normal equation is weighted by the index of its coefficient instead of its level (`mom_wrong`); the constant transition is undefined at the ends of the profile, direct-to-constant reads an unset height, tendency forcing is ignored without a scheme
* **C81** balances, targets, ramps and records proved; geostrophic forcing leaves the vertical part of Coriolis forcing (`vertical_residual`), east and north are not checked to be perpendicular (`skew_wrong`), a truncated last row is accepted, output frequency 0 divides by zero, the hurricane default period differs from the one of Coriolis forcing and its temperature forcing uses the tangential mean wind only
* **C82** directions, continuity and relaxation proved; a given profile file is ignored (`profile_file_ignored`), velocity nudging ignores its time scale, a nudging height above the domain forces it everywhere (`nudge_start_above`), met mast forcing uses the first mast only and compares the damping radius with a squared scaled distance
* **C83** blanking, relaxation and sponges proved; the wall stress and the form drag have the sign of the velocity and accelerate the flow (`stress_accelerates`, `form_drag_accelerates`), form drag is 0/0 on flat water, the target velocity reverses for roughness between 0.5 and 1.5 cells, air moving with the waves is brought to rest in the ground frame, positive west and south distances damp the whole domain, the laminar flag does not turn the sponge off, and the heat constants are read from the momentum ones
* **C84** shape, totals, region and sign proved; a header line silently empties the list (`header_no_forest`), the profile is undefined at the top of the canopy, heights are absolute and unknown kinds are accepted without drag
* **C85** lengths, signs, bounds and invariance proved; production of energy is multiplied by density twice and dissipation once (`density_wrong`), zero energy in stable air is 0/0, the thermal diffusivity of the minimum-dissipation model leaves out the molecular part, the nonlinear model measures wall distance at the top of the cell and from index zero and multiplies its stress by density twice; with the surface layer on, the nonlinear stress of Kosovic lacks the factor C1/4 in its surface part (`kos_stress_spec`)
* **C86** ranges, signs and relaxations proved; with no surface heat flux the energy loses more to buoyancy than the heat flux takes (`neutral_mismatch`), the agreement of the two stability functions with the Prandtl number is within 1 % only, `Cmu_prime` and `prandtl` are ignored, heights without terrain are absolute, a sponge starting above the domain acts everywhere and the strength of the horizontal sponge has no effect, the length after a regrid starts from zero, zero energy is 0/0
* **C87** bounds, limits and the step of energy for unit density proved; ambient values decay unless diffusion is explicit (`ambient_not_sustained`), explicit diffusion leaves out half the dissipation, implicit diffusion has its equilibrium of omega at twice the destruction (`omega_implicit_wrong`), Crank-Nicolson loses positive cross diffusion, production is multiplied by density twice, IDDES never computes buoyancy
* **C88** law, derivative, balance and mixtures proved; the nodal reference pressure holds at node k the pressure of the centre of cell k and zero at the top (`reference_pressure_nodes`, `top_pressure_jump`), the default argument of the reference pressure is 1e-5 for 1e5 (`default_pressure_wrong`), without a reference temperature the thermal expansion is -1 (`unset_temperature`), a coefficient of zero is ignored
* **C89** schemes, uniqueness, conservation and stability proved for exact solves; with `use_tensor_operator = false` the explicit viscous term is divided by density twice (`scalar_operator_wrong`), the improvement of explicit diffusion leaves out the map (`explicit_rk2_map_wrong`), Crank-Nicolson, the default, can make a positive scalar negative
* **C90** law, stresses and errors proved; the check of the iteration is inverted (`abort_only_settled`, `unsettled_returned`), the constant stress drives the flow at the upper wall (`constant_upper_wrong`) and is always along x, the height of the law is the absolute coordinate (`zref_absolute`), the wave stress is 0/0 on crests and depends on the boxes
* **C91** profiles, perturbations, energies and reading of files proved; above the last height of the table the temperature is that of the FIRST height (`table_above_wrong`), the linear profile is shifted unless the domain starts at zero (`linear_profile_ends`), with a NetCDF profile the density is never set (`density_set`), a rank without boxes of a fine level does not take part in the collective fill (`fill_collective`)
* **C92** direction, power law and its integral proved; the mean is not the bulk velocity, the upper layer below the end of the power law is left out of the balance (`bulk_wrong`; exact without shear, `bulk_uniform`), the direction is not kept over a restart (`restart_forgets`), the first step does not turn, temperatures above the table as in C91
* **C93** steps, convective velocity, stresses, residual and all profiles but one proved; on processors the height of the boundary layer is half the number of cells along x times dz whatever the temperature, the scan stores `i` for `k` (`zi_cpu`, `zi_cpu_wrong`; accelerators are right, `zi_gpu_partial`); `tke_buoy` holds the dissipation (`tke_buoy_wrong`), `k_sgs` is declared and never written (`declared_written`), profile files have no head unless the interval is 1 (`profile_no_head`)
* **C94** selection, times, interpolation and native planes proved; NetCDF planes on a high side hold the mean of the first two ghost cells (`netcdf_high_wrong`), NetCDF planes of a refined level are read shifted if the boxes on the boundary do not reach the low corner of the level (`netcdf_read_wrong`; proved otherwise, `netcdf_read_partial`)
* **C96** conservation proved before the volume fraction is cut to its range; the cut makes liquid when a cell is drained through several faces (`drain_several_faces`; along one axis it cannot, `drain_one_axis_partial`) and acts in cells of this solver (`own_cell_cut`); a tolerance of zero makes no iteration (`loop_zero_tol`); the level set field is overwritten by the speed (`levelset_is_speed`)
* **C97** a mesh change outside a connectivity update dereferences a null pointer (`regrid_null`); the rest is proved; the exchange itself is in another program
* **C98** proved for the Godunov schemes on any mesh and for the method of lines on one level; false for the method of lines on refined meshes (`mol_refined_not_conserved`); the flux of a face shared by two boxes is taken to be one value
* **C99** the slopes and reconstructions of AMReX are parameters with stated requirements; in the interface band later iterations are not centred in time (`band_late`), and in boxes of more than 1024 cells a face between two tiles is treated twice (`shared_face_twice`)
* **C101** the Taylor vortex solves the equations only for unit density, as does the channel; the channel profile is measured from coordinate zero (`channel_origin`); the profile for the Smagorinsky model is not a steady solution (`smag_not_balanced`)
* **C102** the channel on a mapped mesh divides physical by computational volume (`rms_mapped`)
* **C103** Taylor-Green needs a square base, the vortex patch cubic cells (`vp_not_conserved`); the rings turn against the given vorticity (`ring_reversed`) and the fat core has less than half of the circulation (`fatcore_circulation`); face velocities of the patch are at the wrong time when the step changes (`vp_times`)
* **C104** the square pulse is wrong in cells wider than the pulse (`square_wide`); the exact solution does not wrap round (`exact_not_periodic`); the wave packet uses a quadrature
* **C105** the dam break misplaces the water when the location is not zero (`dam_location`)
* **C106** history independence proved in full for files whose lengths are points times distance; the force is multiplied by the density twice (`force_density`), a lull slows the stream too much (`gust_exact`), a decreasing linear profile is constant (`linear_spec`), a longer length in the file reads out of range (`lr_overflow`)
* **C107** all cells of levels not covered; the solver is a parameter, exactness a hypothesis of the divergence theorems; the form for small steps keeps the divergence of the old velocity, so a change of inflow in that step is not projected (`small_inflow`, `divergence_kept`); with constant density the new gradient is weighted with the density of the input, not of the field (`constant_density`)
* **C108** proved: signs, union, mask and velocities before the projection for equal velocities; false of the code and refuted: velocity after the projection (`not_restored`), bodies with different velocities (`first_overwritten`), height of cylinders (`cylinder_infinite`), level set outside boxes (`box_outside_wrong`, `mms_box_wrong`), masks of spheres (`sphere_misses_solid`), regrids (`regrid_loses_mask`)
* **C109** all but the curvature proved in full; the curvature is right on cells with equal sides (`curv_spec_partial`), wrong otherwise (`curv_anisotropic_wrong`), its value is capped and levels without a value are refined (`curv_capped`); `grad_error` is compared with differences (`jump_linear`); the manual misstates the value one (`q_unity`)
* **C110** direction, length, points and tables that begin at zero proved; false for the code: repeated tables that begin later (`lidar_offset_table_wrong`), azimuths across the full turn (`lidar_long_way`), the time of the sample (`lidar_lags`), the domain (`lidar_leaves_domain`)
* **C111** clock, lengths and attitude proved; samples only every few steps make the scanner fall behind without bound (`spin_falls_behind`); the pattern runs ahead of the hub (`pattern_ahead_of_hub`)
* **C112** sweep, cone, rule and the first cone of a step proved; false for the code: all other cones of a step use the rays of the first (`los_other_cones`, `los_other_cones_wrong`), values at the cones of the last step use the rays of the present one (`los_prior_wrong`), the cone points are read outside their list (`cone_points_overrun`), longer steps than the first (`radar_falls_behind`)
* **C113** exchange, points, reaction, nacelle and frame proved; false for the code: the velocity points of the blades are shifted by one (`blade_velocities_shifted`), the blade correction uses velocities of the step before (`correction_lags`) and takes velocity points for force points (`correction_points`, `correction_reads_outside`), wide kernels leave the box (`box_misses_spread`), vertical shafts (`rotor_frame_vertical`)
* **C114** fresh runs, clocks, checkpoints of the same interval and restarts proved; false for the code: a replayed turbine runs one step ahead of the flow (`replay_one_step_ahead`), its initial solution has other velocities (`replay_start_differs`), records of older runs are replayed (`replay_uses_older_run`, `replay_appends`), checkpoints may miss those of the flow (`checkpoint_unpaired`, `checkpoint_by_time`), the duration after a change of step size (`duration_not_covered`)
* **C115** ghost cells of velocity, volume fraction and density, boundary faces, types and state times proved; false for the code: the advecting velocity gets the wave half a step late (`mac_half_step_late`), its ghost faces above the domain read one cell too far (`mac_high_reads_second_ghost`), the last faces beside the domain get none (`mac_last_tangential_unset`), a wind profile is dropped (`profile_dropped`), density needs the gas value on the face (`density_ghosts_partial`, `face_values`)
* **C116** proved for runs that start at record 0, for restarts before the end of the file and for complete files; false for the code: with another start record the time of the record behind is in the time of the file (`late_start_wrong`, `second_record_start_wrong`), a restart past the end of the file begins the loop anew (`restart_after_loop`, `restart_after_loop_aborts`), a file that is too short stands still when one rank has no cells in the zones (`waves_freeze`); reading and spatial interpolation are those of the library Waves2AMR
* **C117** false for the code: the misspelt option leaves checkpoints on in a dry run (`dry_run_checkpoint`), a delay suppresses its only plot file (`dry_run_no_plot`), an interval in time makes it stop with an error (`dry_run_refused`), and the initial state is not written at intervals of time with adapted steps and no initial iterations (`initial_plot_missing`); the rest is proved; post-processing is not part of these events
* **C118** false for the code where cells are smaller than the tolerance, which is a length of 1e-4: the coarsest level is then taken whatever was asked for (`small_cells_wrong`); a regrid that uncovers the part stops the run (`regrid_lost`); chunking of the box by the library and the NetCDF/plot file format are not modelled
* **C119** false for the code on sides that let fluid both in and out: fluid can enter with a velocity nobody gave (`inout_enters_unprescribed`), and with inflow from files or a modulated power law the faces of all sides keep the solver's extrapolation (`abl_leaves_faces`); what the file and wave boundaries add is C115 and the boundary plane properties; the exchange of ghost cells is not modelled
* **C120** false for the code: two more fields are needed than there is information in and a shorter message reads from an empty list (`short_undefined`), a message for more turbines is misread (`extra_turbine_misread`), values take effect one step late (`step_late`), directions from 0 to 90 are reported beyond 360 (`north_east_beyond`), a thrust coefficient above 1 has no power (`power_undefined`), a rank sends to itself before it receives (`own_turbine_blocks`); `atof`, formatting and the federation are parameters; a message that begins with a comma is one empty field (`leading_comma`)
* **C121** false for the code: the controller is told a time one step behind the structure (`controller_late`), a restarted flow starts its turbines over (`restart_starts_over`), the diameter leaves out the hub (`diameter_without_hub`); the structural solver is a parameter, reading WindIO files is C142, single precision is not modelled
* **C122** false for the code: a reported change of zero does not mean that the iterations have converged, as scalars and pressure are not looked at (`zero_change_not_converged`); with prescribed velocity the source and viscous terms left by the initial iterations are added in every step (`prescribed_stale`), and with more than one iteration the velocity is solved for (`prescribed_lost`); ghost cells, mesh mapping and overset are not in this model
* **C124** false in part: overset cells are never marked (`overset_not_marked`, the blanking is looked for among the real fields), the first level is ignored (`start_level_ignored`), the two sources of a step use different random numbers (`perturbed_twice`), and under stable stratification the hybrid rate corresponds to a larger viscosity (`hybrid_viscosity`); the distribution of the random numbers is not modelled
* **C125** layering and hand-over proved for all other options; false for the code: the largest number of bottom iterations is never handed over (`bottom_maxiter_ignored`), the projection of the faces ignores its order (`mac_order_ignored`), unknown bottom solvers, the documented petsc among them, are accepted in silence (`unknown_solver_silent`), the defaults differ from the manual (`default_tolerances`)
* **C126** reading and look-up proved for files that are complete; false for the code: a file that ends early is accepted and the wing has neither lift nor drag at positive angles (`truncated_accepted`, `truncated_no_lift`), a file of three columns is misread (`three_columns_wrong`), a comment on NumAlf empties the table (`comment_empties`)
* **C127** proved for the volume of fluid method; false for the code: no run with the level set as its interface starts, it dereferences a null pointer (`levelset_never_starts`); the printed change begins anew with every restart (`change_forgotten`); with `initialize_pressure` a restart replaces the pressure of the file (`restart_resets_pressure`); density and level set go on in cells blanked by overset (`holes_not_kept`)
* **C128** source, error and initial state proved, the library is a parameter; false for the code: a line of the log has the time of the start of its step (`log_time_early`), and a restart truncates the log (`log_restart_loses`)
* **C129** the library is a small model of its documentation; false for the code: the test for the file itself is inverted, so `parent` and `root` of a file dereference a null pointer and those of a group return the group (`way_up_wrong`); names of groups end with zero characters and `full_name` lets the library write past its buffer (`group_name_wrong`); `all_dims` of a group lists dimensions of the file (`all_dims_wrong`)
* **C130** proved for runs that solve for the velocity, outside the delay and the start from rest; false with prescribed velocities: at the free surface the limit is twice that of other runs and diffusion is not limited at all (`prescribed_too_long`); the diffusion of scalars does not enter in any run
* **C131** proved for files, headers, boxes and components, and for the values at faces that were periodic in the recording; false at faces that were not: the layer beyond the face is recorded as 1.0e13 (`recorded_wall`, `replay_wall`); cells of a refined level of the replay outside the recorded level are left unset and the header is not checked for this (`replay_spec`); the text of the headers is not modelled
* **C133** proved for the transported fields, density, the pressure gradient and averages; not so for fields without the flag, which become zero on every level that changes (regrid_loses; of these the source of the Burggraf flow is never set again), and the integral is kept only if refined cells hold the mean of the cells in them, which the code never enforces for the solution: advection keeps it, a source that is not linear does not; ghost cells are not modelled
* **C134** proved: round trip, refusal, continuation for steps that depend on saved fields and on what the set-up gives, and the fields that are set after each change of the mesh; false of the code and refuted: the level set of immersed bodies and the source of the Burggraf flow after a change of the mesh, these sources and the mesh map on levels that a restart adds, and fields that an action of the start changes again (relaxation of waves); ghost cells, boxes and processes are not modelled, what a step reads is a hypothesis
* **C135** proved with uniform density for every diffusivity of at most ratio times the viscosity while cfl is at most 1/ratio (ratio 1 for the momentum), both schemes; false of the code and refuted with variable density (air beside water) and for scalars that diffuse faster than the momentum when cfl exceeds the Prandtl number; beside sides with given values proved for cfl up to two thirds, false for cfl above 6/7, the default being 1 (given_side_undershoots); the tensor operator, mesh maps and refined levels are not modelled
* **C137** all parts proved for sources other than the destination; missing because false of the code: with one field as source and destination a copy to higher overlapping components repeats the first (copy_up_smears) and a division by the first own component divides nothing else (division_by_own_component)
* **C138** proved for fields in cells and for velocities on faces filled together with periodic, extrapolated (order zero and hoextrap) and given sides, with the library's filling of one level modelled by its contract; fields on nodes are not filled by this code; with recorded inflow planes the velocities on ghost faces beyond the inflow are extrapolated, not the recorded ones (planes_extrapolated); with hoextrap the range of the data is left (slope_overshoots) and boxes thinner than three cells give other values (thin_boxes_differ); false of the fill with a constant, which replaces the data of the boxes as well (const_fill_overwrites)
* **C139** proved for the NetCDF histories of wings, disks and turbines, with the computation of the values a function of the state of the flow; missing: what the coupled turbine program writes itself; false of a frequency of zero (division by zero for wings, disks and bodies), of velocities, which are those of the beginning of the step under the time of its end (velocity_behind), of the positions of moving wings, which are written once (wing_positions_stale), and of a second run from the same step, which begins the file anew (same_start_loses)
* **C140** proved in exact arithmetic with exact linear solves; missing: the order of floating-point additions and the error of solvers; false of the nonlinear term of Kosovic's model, whose divergence reads ghost cells of a tensor that were never filled (kosovic_depends)
* **C141** proved for all models and equations but those where it is false of the code: for temperature with AMD and for tke and sdr with the k-omega models ghost cells of the coefficient are never set, so on faces between boxes each box has half the coefficient of its own cell (half_at_box_faces); with AMD the laminar diffusivity of heat is left out (amd_without_conduction); OneEqKsgsS94 computes no turbulent viscosity (s94_laminar). Mapped meshes are not modelled.
* **C142** proved where tables that belong together are given at the same places; false of the code otherwise: places of y and z of an axis, of the thickness of the tower and of drag and moment are never read (axis_cut, tower_thickness_wrong, polars_wrong), and shorter lists are read beyond their end (axis_defined_iff, second part of tower_thickness_wrong). Only masses and stiffnesses of blades are checked (blade_sections). The YAML reader and the solver are not modelled.
* **C143** false of the code: the file written by coarsen-chkpt has the new level only, all existing ones are dropped (coarsen_drops_levels); the check for small meshes accepts every even number of cells (small_mesh_accepted); the time step in the header is that of the inputs. Fields at nodes are modelled for the coarser file only; the interpolation and the boxes made by AMReX are parameters.
* **C144** proved for levels finer by two and the first variable; false of the code otherwise: the mask of covered cells takes the ratio for two whatever it is (ratio_four_masks), only the first variable is compared (first_variable_only), cells of all levels count the same in L2error (cells_unweighted)
* **C145** proved for plotfiles and for checkpoints with one level; for checkpoints with more the values are those of the last level at cells with the same numbers (checkpoint_table_levels); cell sizes of finer levels are those of the base level (cell_size_levels). One process; the reading of nodal pressure into cells by AMReX is not modelled.
* **C146** proved for low faces with equal ratios and for high faces with ratios two; false of the code otherwise: at high faces the box is off beyond any other ratio and then nothing is read (boxes_high_iff, high_ratio_unread); sizes of finer cells are wrong when ratios differ (sizes_iff, sizes_mixed, place_mixed)
* **C147** proved for low faces; false of the code at high faces: the cells across the face keep their coarse numbers, the run accepts the file and reads nothing from it (refine_high_unread, refine_accepted). One grid for each level; the interpolator of SciPy is modelled as linear interpolation in each direction.
* **C148** order of steps proved for names of at most two lengths; false of the code for three: the lengths tried go up by 0, 1, 2, ... so that steps are lost and others repeated (series_three_wrong). An unknown label gives the first sampler (sampler_index); a sampler that lost a probe shows values of the one before (lost_probe_wrong).
* **C149** proved for files of numbers; false for values that are not numbers: sums of data frames leave them out, so a file with any values replaced by them is accepted with no tolerance (nan_accepted).
* **C150** values proved for every order of attributes; that row r is variable r proved for up to ten variables and false for eleven, as attributes come in the order of text (rows_eleven_wrong). The names of rows are not saved.
* **C151** means and other entries proved; values are used only if no later line sets the same name: false in general (old_value_wrong), so a second run changes nothing (second_run_wrong), and without a line of source terms nothing is written (update_none). The profile is written well (profile_read) but the solver does not read it with these settings (profile_unused_wrong).
* **C152** columns and names proved; different columns can have the same name: false for a vector and a scalar whose name is that of its component (asc_names_clash_wrong).
* **C153** proved for names of fields without underscore, every field on every side, steps that come once in the table and paths without _H; false for the others: a field with an underscore is read as another one or stops the script (underscore_wrong), every _H in the path is taken out (path_iff), a step that comes twice gets its first time (time_twice_wrong).
* **C154** proved for windows inside of the array, and for the arrays of actuators for all numbers of points; that slices outside are refused is false without assertions, for a start before the array also with them, as the sum wraps around (before_wrong), and a start at or behind the end differs between the builds (rest_behind_wrong).

Further observations made while reading *(read: noticed in the source, not all stated as theorems)*:

* Time and output: a fixed step ignores `enforce` options of post-processing; the dry-run check reads `checkpoint_inteval`
  (setup/init.cpp:35), so that entry never acts.
* Interpolation: `LOWLIM` with an empty table reads `y[0]`; bilinear lookups at the last corner read one past the end.
* Reynolds stresses are not filled on regrid.
* Boundary conditions: a UDF on one inflow face replaces constants on all others (C67); `wall_type` is read for slip walls
  only; the temperature's inflow/outflow decision may read a velocity ghost already overwritten.
* Profiles: docs give `umax` default 0.0, the code 100; a linear profile with start = stop is 0/0, start > stop is a step.
* Sampling: NetCDF output aborts unless velocity is sampled; `rotation_matrix` for antiparallel vectors returns −identity;
  free surface with start = end and several points divides by zero, `max_sample_points_per_cell = 0` writes out of range.
* Waves: a negative current passes the check of the Stokes waves; zones of zero length are 0/0; overlapping blend zones
  ignore the left one; the derivative of the fourth constant misses a term.
* Actuators: the check for `spreading` uses another name than the entry; `final_checks` runs before the counts are computed;
  `output_frequency = 0` is a modulo by zero; the correction mixes frames for wings (C77).
* Drag: the sponge reference profile is copied once in the constructor and never updated; `sponge_density` scales the target
  velocity; kappa is fixed at 0.41 whatever the boundary layer uses.
* Turbulence: the wall distance is set by the channel physics only, for a channel between 0 and 2; everywhere else it is zero and
  the SST model acts as next to a wall. `SDR.source_terms` must name `SDRSrc`, unlike the source of the energy, which is added by
  the model. The source of KLAxell reads `ABL.Cmu`, the model `KLAxell_coeffs.Cmu`. `OneEqKsgsS94` computes nothing. The
  constants 16 and 5 of the similarity functions are fixed in Kosovic. `meso_sponge_start` has the defaults 600, 650 (manual) and 2000.
* Reference state: the manual gives 1.01325e5 as default of `bottom_reference_pressure`, the code 1.0e5; each level integrates its own
  column with its own cell size, so the reference density of a fine level is not that of the coarse one.
* Channel wall functions: on refined levels the reference cell is counted in fine cells but the reference height is that of level 0;
  at an upper wall the density is read from the ghost cell, and the wave model adds its stress there too (at x = 0 and zero wind).
  The Schumann model keeps the friction velocity of the body force.
* Initial state: with `init_profile` nothing but the profile is read from the input file, `perturb_velocity = false` included. All heights
  are coordinates, not heights above the bottom of the domain. The turning of the modulated power law is on by default (0.02 degrees per
  second).
* Boundary layer height on processors (`ABLStats.cpp:342`): `idxmax = i` is stored instead of `k`; `zi` and with it the convective velocity
  `wstar` do not depend on the temperature (`Stats.zi_cpu`). `stats_output_frequency = 0` divides by zero.
* Energy budget (`ABLStats.cpp:755`): `tke_buoy` averages the dissipation (`Stats.tke_buoy_wrong`).
* Inflow planes: `impl_buffer_field` subtracts the offset where the native reader adds it; on high sides the NetCDF planes are the mean of two
  ghost cells (`Bndry.netcdf_high_wrong`). The first check of `populate_data` joins its conditions with "and" and never fires
  (`Bndry.populate_spec`). On a restart `write_header` starts the planes anew: NetCDF files are overwritten.
* Overset: `TiogaInterface::post_regrid_actions` uses the host copies of the blanking that `post_overset_conn_work` has released
  (`Overset.regrid_null`). `Overset.reinit_convg_tolerance = 0` switches the sharpening off, as the initial error is a multiple of the tolerance
  (`Overset.loop_zero_tol`). The pseudo time step looks at one face at a time, so a cell can be drained below zero and the cut creates liquid
  (`Overset.drain_several_faces`). `sharpen_nalu_data` leaves the speed in the level set field (`Overset.levelset_is_speed`).
* Advection: the method of lines does not average fluxes down, so it does not conserve on refined meshes (`Adv.mol_refined_not_conserved`). In the
  interface band `hybrid_fluxes` gets the full step also when the state is the half-step state of a fixed point iteration (`Adv.band_late`). It works in
  place on faces shared by two tiles of a box, which happens for boxes wider than 1024 cells (`Adv.shared_face_twice`).
* Verification cases: with a density other than one the Taylor vortex and the laminar channel are not solutions (`Exact.ctv_density`, `Exact.channel_solves`); the channel parabola is measured from coordinate zero, not from the wall (`Exact.channel_origin`); the profile used with the Smagorinsky model solves "viscosity times second derivative", not the derivative of the stress (`Exact.smag_not_balanced`), and is compared with only for walls normal to z (`Exact.chan_error_smag`); on a mapped mesh the channel divides physical by computational volume (`Exact.rms_mapped`). Not modelled: the Burggraf source is filled by `initialize_fields` only, so it is zero after a restart.
* Benchmark cases: Taylor-Green is solenoidal just if the base is square (`Case.tg_solenoidal`); the turbulent channel measures the wall distance in a channel from 0 to 2 (`Case.wall_dist_other`) and always blows along x, also when x is the direction normal to the walls (`Case.channel_x_walls`); the vortex patch conserves mass on faces for cubic cells only (`Case.vp_not_conserved`), takes the face velocity half of the previous step ahead and leaves cell velocities at the start of the step (`Case.vp_times`); vortex rings turn against the vorticity given (`Case.ring_reversed`) and the fat core has 0.43 of the circulation asked for, since a constant is multiplied in that should divide (`Case.fatcore_circulation`); the velocity of the breaking wave is not relative to the water level (`Case.bw_level`); the dam break ignores the location in one branch of four, the one inside the water (`Case.dam_location`); the square pulse in cells wider than itself is too large (`Case.square_wide`); the exact advected pulse does not wrap round in a periodic domain (`Case.exact_not_periodic`).
* Synthetic turbulence: the force contains the density and the sum of sources is multiplied by it again, so the acceleration is proportional to the density (`Syn.force_density`); the published equation has the component along the stream where the program has the size of the perturbation, so a lull slows the stream by more than its size (`Syn.gust_exact`); a linear profile with wind decreasing with height is constant (`Syn.linear_spec`).
* Nodal projection: for a step below a tenth of the one before, the change of the velocity is projected with zero velocity at inflow boundaries; if the inflow changed in that step (or the old velocity was not solenoidal with it), the divergence stays (`Nodal.small_inflow`). With constant density the old gradient is put back with the density of the field, the new one is taken off with `incflo.density` (`Nodal.constant_density`).
* Immersed bodies: `post_pressure_correction_work` has no caller, so after the projection the velocity in a body is the prescribed one plus the change of the pressure gradient (`Ib.not_restored`); every body sets its velocity in the cells of all bodies, the last one wins (`Ib.first_overwritten`); the height of a cylinder is read and ignored (`Ib.cylinder_infinite`); the level set outside a box vanishes in the planes of its faces (`Ib.box_outside_wrong`), and with `is_mms` those cells are overwritten (`Ib.mms_box_wrong`); after a regrid the node mask is one everywhere (`Ib.regrid_loses_mask`).
* Refinement by curvature: all second differences are scaled with the cell size along the first axis (`Tag.curv_anisotropic_wrong`); the value is capped at the inverse cell size, so levels without a value are refined too, from ghost cells that were not filled (`Tag.curv_capped`). The manual says a non-dimensional Q of one means equal rotation and strain; it means three times (`Tag.q_unity`).
* Lidar: a repeated table that does not begin at time zero is read at the wrong time (`Beam.lidar_offset_table_wrong`); azimuths are interpolated as numbers, so 350 to 10 degrees passes through 180 (`Beam.lidar_long_way`); beam angles are those of the beginning of the step while the flow and the time stamp are those of its end (`Beam.lidar_lags`, also true of the radar); the beam may leave the domain (`Beam.lidar_leaves_domain`).
* Spinner lidar: with output every few steps its clock falls behind without bound (`Beam.spin_falls_behind`); the pattern runs one step ahead of the hub position (`Beam.pattern_ahead_of_hub`).
* Radar: with several cones in a step, the line-of-sight velocity of all cones is computed with the rays of the first one (`Beam.los_other_cones_wrong`) and that at the last step's cones with the present rays (`Beam.los_prior_wrong`); `output_cone_points` reads outside a list (`Beam.cone_points_overrun`); the inputs `radar_npts_azimuth` and `radar_quadrature_type` are required but not used (`Beam.radar_rays`); the end of the beam is not sampled (`Beam.cone_distance`); steps longer than the first make it fall behind (`Beam.radar_falls_behind`). With NetCDF output every sampling object needs the velocity, radar or not (`Beam.netcdf_needs_velocity`).
* External turbines: a replayed turbine is one step of the flow ahead for the whole run, because the call at initialization already advances it (`Ext.replay_one_step_ahead`); the velocities at the start are not recorded, so a replay starts the solver with those of the first step (`Ext.replay_start_differs`); the velocity file of an older run is kept and appended to, and a replay then reads the older run (`Ext.replay_uses_older_run`, `Ext.replay_appends`); checkpoints of the solver count its own steps and can miss those of the flow, and with checkpoints by time there are none (`Ext.checkpoint_unpaired`, `Ext.checkpoint_by_time`); a step of the flow just below a multiple is refused (`Ext.substeps_just_below`); the check of the duration assumes one step size since time zero (`Ext.duration_not_covered`).
* External turbines: the velocity points of the blades start at the hub's point, so they are shifted by one (`Ext.blade_velocities_shifted`); the relative velocities for the blade correction are those of the step before, already corrected (`Ext.correction_lags`), and pair velocity points with force points by number (`Ext.correction_points`, `Ext.correction_reads_outside`); kernels wider than an eighth of the diameter reach outside the box that decides which ranks act (`Ext.box_misses_spread`); a vertical shaft gives a frame with zero rows (`Ext.rotor_frame_vertical`).
* Wave boundaries: the advecting velocity, wanted at the middle of the step, gets the wave of the end of the step, because the test for changed data has the sense opposite to that for recorded planes and the boundary faces are set after the targets moved on (`Wbc.mac_half_step_late`, `Wbc.mac_short_step`); its ghost faces above the domain read the second ghost cell (`Wbc.mac_high_reads_second_ghost`), and ghost faces beside the domain in line with its last face get no wave (`Wbc.mac_last_tangential_unset`); a wind profile for the inflow is replaced by constants (`Wbc.profile_dropped`); the density of a wave face that is not given is one, not that of the gas (`Wbc.face_values`, `Wbc.density_ghosts`).
* Recorded waves: the time of the record behind is `(ntime - 1) * dt` without the start time, so for a start at record 2 or later the target overshoots (`W2a.late_start_wrong`; the regression tests start at record 16), and for a start at record 1 the difference of the records is divided by the machine epsilon (`W2a.second_record_start_wrong`, `W2a.first_target`); a restart past the end of the file starts the loop again at its first record and wants the record before it (`W2a.restart_after_loop`, `W2a.restart_after_loop_aborts`); the offset found at an unexpected end of file is negative but combined over ranks with the maximum, so a rank without cells in the zones undoes it and the waves stand still (`W2a.waves_freeze`).
* Dry runs: the option added to switch checkpoints off is spelt `checkpoint_inteval`, so a dry run writes a checkpoint, and the dry run of a restart writes one with the index of the checkpoint it was started from (`Start.dry_run_checkpoint`); a delay of plot files leaves it without output (`Start.dry_run_no_plot`); with plot files at intervals of time the added interval in steps makes the input inconsistent and the run is refused (`Start.dry_run_refused`).
* The initial state is not written with adapted steps, plot files at intervals of time and no initial iterations, because the step is still -1 then (`Start.initial_plot_missing`).
* Subvolumes: sizes and origins are compared to within 1e-4 in absolute terms, so in a mesh with cells below that the coarsest level is taken whatever size was asked for (`Subvol.small_cells_wrong`); a regrid that uncovers part of it stops the run (`Subvol.regrid_lost`); the default size of chunks stays that of the level at the first evaluation (`Subvol.history_chunk`).
* On a side that lets fluid both in and out, a given velocity that points outwards leaves the solver's velocity in place even where that points inwards, so fluid enters with a velocity nobody gave (`Inflow.inout_enters_unprescribed`); with inflow from files or a modulated power law in use no face on any side is set (`Inflow.abl_leaves_faces`).
* Coupling to a controller: the parser drops two fields at the end of a message before it takes the yaw angles, so a message with time, wind and yaw angles only reads from an empty list (`Cosim.short_undefined`), and one for more turbines is taken with wind direction as speed (`Cosim.extra_turbine_misread`); the physics of a step run before the messages of the step are read (`Cosim.step_late`); wind from the north-eastern quarter is reported with a direction of 360 to 450 (`Cosim.north_east_beyond`); the rank that talks to the controller sends to itself with a blocking send before it receives (`Cosim.own_turbine_blocks`); the power of a disk with a thrust coefficient above 1 is not a number (`Cosim.power_undefined`).
* Kynema turbines: the controller is called after a step of the structure with the time at which the step began (`Kyn.controller_late`); no checkpoint is written and the only mode is a new start, so a restarted flow has its turbines back at time 0 (`Kyn.restart_starts_over`); the rotor diameter is twice the length of a blade, without the hub (`Kyn.diameter_without_hub`).
* Prescribed velocity: `ApplyPrescribeStep` says that no sources and viscous terms are used, but the right-hand side adds what is stored for them, and the initial iterations have stored the terms of an ordinary step (`Iter.prescribed_stale`; pure only if nothing was stored, `Iter.prescribed_pure`). With more than one fixed-point iteration all but the first solve for the velocity (`Iter.prescribed_lost`).
* Fixed-point iterations: the reported norm looks at the velocity only, and may be zero before the iterations have converged (`Iter.zero_change_not_converged`).

* `ActuatorSourceTagging` asks `field_exists("iblank_cell")`, which looks at the real fields only; `iblank_cell` is an integer field, so overset cells are never marked (`Small.overset_not_marked`). `PerturbationForcing` never uses its `start_level`, divides by zero for `time_steps = 0`, reads empty vectors without a box, and draws new numbers at each evaluation within a step (`Small.start_level_ignored`, `Small.perturbed_when`, `Small.no_box`, `Small.perturbed_twice`).
* `MLMGOptions` reads `bottom_maxiter` and never passes it on (`Solver.bottom_maxiter_ignored`); `mac_proj.max_order` has no effect (`Solver.mac_order_ignored`); the comparison knows `bicg`, not the documented `bicgstab` and `petsc`, and lets unknown names pass (`Solver.unknown_solver_silent`); the default `bottom_atol` is positive where the manual says -1, off (`Solver.default_tolerances`).
* An airfoil file with fewer rows than announced is accepted; the missing rows are zeros at angle zero, so the look-up of every positive angle is beyond the table and gives no lift and no drag (`Airfoil.truncated_accepted`, `Airfoil.truncated_no_lift`). A table of three columns is misread in silence (`Airfoil.three_columns_wrong`); a comment that mentions `NumAlf` before the line itself gives an empty table, whose look-up is undefined (`Airfoil.comment_empties`, `Airfoil.empty_undefined`).
* With `surfaceRANS` on, the nonlinear stress of the Kosovic model lacks the factor `C1/4` in its surface part (`Les.kos_stress_spec`). The slope of the Newton iteration for the wavelength of Stokes waves lacks a factor for the orders four and five (`Waves.newton_constants`). A message of the controller that begins with a comma is read as one empty field (`Cosim.leading_comma`).
* No run with `interface_capturing_method = levelset` starts: the sum of the volume fractions that is taken after initialisation uses a null pointer (`Mph.levelset_never_starts`). The printed change of liquid begins anew with every restart (`Mph.change_forgotten`); with `initialize_pressure` a continued run replaces the pressure it read (`Mph.restart_resets_pressure`); density and level set are advanced in cells that overset blanks (`Mph.holes_not_kept`).
* The log of a manufactured solution gives the time of the start of the step whose end its errors are of (`Mms.log_time_early`) and is emptied by a restart (`Mms.log_restart_loses`); `transport.viscosity` replaces `MMS.nu` (`Mms.nu_replaced`).
* `NCGroup::is_root` is inverted: `parent()` and `root()` of a file dereference a null pointer, those of any group return the group itself (`Nc.way_up_wrong`). `NCGroup::name()` has trailing zero characters, `full_name()` gives the library a buffer one byte short (`Nc.group_name_wrong`). `all_dims` numbers dimensions from 0, in a group these are others (`Nc.all_dims_wrong`).
* With prescribed velocities the factor 2 at the free surface is missing, so a step may cross the whole `cfl` where other runs grant half of it, and explicit diffusion is not limited (`Cfl.prescribed_too_long`). The comment of `compute_dt` says that diffusion enters for implicit and Crank-Nicolson schemes, the code has it for the explicit one (documentation only).
* In the native format the ghost cells of the fields are not copied to the register (`copyFrom` with no ghost cells): at a face that is not periodic the layer beyond the face is recorded as 1.0e13, and a replay sets the inflow to about 5.0e12 (`Bplane.recorded_wall`, `Bplane.replay_wall`). The same holds at a periodic face for a refined level without cells on the other side. The NetCDF format takes the ghost cells.
* A replay in the native format does not compare the recorded refined levels with its own: cells of the plane outside the recorded box keep what was in memory (`Bplane.replay_spec`, second part). The NetCDF format compares the bounds.

- The source of the Burggraf flow, `bf_src_term`, is set only when the fields are initialised; after a change of the mesh it is zero on every level that changed (`Regrid.regrid_loses`; BurggrafFlow.H:61 has an empty `post_regrid_actions` and the field lacks the flag). The same holds for `intermittency`, which nothing reads.
- The solution is never averaged down to refined cells. Fluxes are, so advection keeps refined cells at the mean of the cells in them (`Regrid.advection_means`); a source that is not linear does not, and when a region is coarsened later the integral changes by exactly that difference (`Regrid.square_source_breaks_means`, `Regrid.coarsening_changes_integral`).
- The level set of immersed bodies is set only when a run starts (IB.cpp:59-69; `post_regrid_actions` is empty and the field is not filled), so after a change of the mesh it is zero on every level that changed: the bodies are gone there (`Hist.gone_after_regrid`, `Ib.regrid_loses_bodies`), or, with the exact solution prescribed, the whole level is set to it (`Ib.regrid_mms_everywhere`). A restart brings them back (`Hist.regained_on_restart`).
- A restart adds levels above the finest one of the checkpoint wherever cells are tagged (incflo.cpp:73-75), at a step where the run that was not interrupted would not change its mesh. On these levels the mesh map is not computed and is zero, and so is the source of the Burggraf flow (`Hist.gone_after_restart`), until the next change of the mesh (`Hist.map_regained`; the source stays zero).
- `OceanWaves::post_init_actions` relaxes the solution to the waves also on a restart, right after the last step of the run before has done so: cells in relaxation zones are relaxed twice (`Hist.start_action_repeated`). The same holds for the post-solve operations of the equations (PDE.H:79).
- The time step with explicit diffusion takes viscosity over density cell by cell (incflo_compute_dt.cpp:140-170), but faces diffuse with the mean viscosity of two cells: beside water, air is given fifty times the diffusion that the time step accounts for, and even with `cfl = 0.5` the difference grows without bound (`Expl.air_water_diverges`).
- The same limit uses the viscosity of the momentum for all equations. A scalar with `1/Pr` times its diffusivity grows without bound as soon as `cfl` exceeds `Pr` (`Expl.temperature_diverges`); the one-equation model diffuses temperature up to three times and its own energy twice as fast as momentum (OneEqKsgs.cpp:193-196, 213-215). The comment on top of the function says that the limit is used with implicit diffusion; it is used with explicit diffusion only.

- Dividing all components of a field by its own first component (field_ops.H:87-125 with one field as source and destination) makes the first one and leaves the others as they are, for the first is overwritten before the others are divided (`FieldOps.division_by_own_component`); a copy to higher overlapping components of the same field repeats the first (`FieldOps.copy_up_smears`).
- Setting a lower bound and normalising leave the ghost cells as they are (`FieldOps.lower_bound_spec`, `FieldOps.normalize_spec`).
- `FieldFillConstScalar`, described as filling newly created grids, sets whole arrays: filling ghost cells of such a field replaces its data (`Fill.const_fill_overwrites`); no field uses it at this commit.
- The history of a wing writes `xyz` once, although wings may move (`ActOut.wing_positions_stale`); turbines write theirs with every record.
- `output_frequency = 0` divides by zero for wings and disks and for immersed bodies, which write nothing; a turbine writes every step (`ActOut.zero_frequency`).
- Velocities in histories are sampled before a step and labelled with the time after it (`ActOut.velocity_behind`).
- A second run from the same step replaces the history of the first (`ActOut.same_start_loses`).
- Kosovic's nonlinear stress: the divergence of the tensor reads its ghost cells, which are never filled; beside cuts between boxes the result depends on the cutting (`Prog.kosovic_depends`).
- The effective diffusivities of temperature with AMD and of tke and sdr with KOmegaSST and KOmegaSSTIDDES are computed in the cells of boxes only; their ghost cells keep the zero of allocation, and on faces between boxes the coefficient is half that of the own cell, different in the two boxes (`Eff.half_at_box_faces`). AMD leaves out the laminar diffusivity of heat (`Eff.amd_without_conduction`). OneEqKsgsS94 never computes its turbulent viscosity (`Eff.s94_laminar`).
- The axis of a blade or tower is read at the places of its `x` table; places of `y` and `z` are ignored. A straight blade given in `x` and `y` at its two ends and along its length at three places ends at the second of them (`Wio.axis_cut`). The thickness of the tower is taken at the places of the diameter (`Wio.tower_thickness_wrong`), drag and moment at the angles of lift (`Wio.polars_wrong`); shorter tables are read beyond their end. For masses and stiffnesses of blades there is a check.
- `coarsen-chkpt` is described as adding a coarser level to the existing grid; its last level is `min(0, finest - 1)`, so the file has only the new level (`Tools.coarsen_drops_levels`). Its check `(ncell % 2) % 8` accepts any even number of cells (`Tools.small_mesh_accepted`).
- `compareMultilevelToReference` masks covered cells with ratio two whatever ratio is given (`Tools.ratio_four_masks`), compares only the first variable (`Tools.first_variable_only`) and sums squares without volumes (`Tools.cells_unweighted`).
- `CheckpointToCSV` reads all levels one after the other into the array of the base level, so the last level is what the table shows (`Tools.checkpoint_table_levels`); cell sizes of finer levels are not divided (`Tools.cell_size_levels`).
- `native_boundary_plane.py` places the planes of high faces rightly only when every ratio is two; else the run finds no cell of them (`Bscript.high_ratio_unread`). Cell sizes of level `l` are divided by the last ratio to the power `l`, wrong when ratios differ (`Bscript.sizes_iff`).
- `refine_native_boundary_plane.py` keeps the coarse cell numbers across the face, right at low faces only; a finer run accepts the files of high faces and reads nothing from them (`Bscript.refine_high_unread`, `Bscript.refine_accepted`).
- `convert_native_sample_to_time_series.py` sorts directories by length with steps 0, 1, 2, ... added one after the other, so names two digits longer than the shortest are skipped and other steps come twice (`Sscript.series_three_wrong`); a label that does not exist gives the first sampler (`Sscript.sampler_index`).
- `convert_native_sampling_to_structured_ascii.py` does not clear the rows between samplers; after a lost probe a table shows values of the sampler before (`Sscript.lost_probe_wrong`).
- `fcompare_particles.py` accepts, with no tolerance, a file in which any values were replaced by NaN, as sums of data frames skip them (`Cscript.nan_accepted`).
- `convert_amrex_hdf5_plotfile.py` numbers rows in the order of text of the attributes: with eleven variables row 2 is variable 10 (`Cscript.rows_eleven_wrong`).
- `calc_inflowoutflow_stats.py` puts its lines after the first line with `ICNS.source_terms`; a later line with the same name still wins, so a second run of the script has no effect on the solver (`Iscript.old_value_wrong`, `Iscript.second_run_wrong`); the profile it writes is not read by the solver (`Iscript.profile_unused_wrong`).
- `ascent.cpp` checks names of fields, not of columns: a vector `a` and a scalar `ax` give two columns `ax` (`IO.asc_names_clash_wrong`).
- `generate_native_boundary_plane_header.py` takes what follows the first underscore of a name for the side, so fields such as `mu_turb` stop it (`Hscript.underscore_wrong`), and takes every `_H` out of the path of data (`Hscript.path_iff`); after a restart a step has the time of the first run (`Hscript.time_twice_wrong`).
- The assertion of `slice` adds start and number modulo 2^64, so a start before the array is accepted (`Win.before_wrong`); a slice up to the end with a start behind it has nearly 2^64 elements without assertions (`Win.rest_behind_wrong`).  No call of the code does so.
- The key of a turbulence model joins two names by a hyphen, so models with a hyphen in their names could be confused (`Select.hyphen_wrong`); none of the code has one.
* `line_hvelmag_derivative_interpolated` is declared, never defined. `GeometryRefinement` uses the first registered field.

Suspected and found **not** to be a disagreement: C47 (reductions over ranks are right); roughness defaults (documented).

## Axioms of the claimed theorems

From `#print axioms` for every theorem named in MANIFEST.json. No theorem depends on any other axiom.

* `propext, Classical.choice, Quot.sound`: all 1419 claimed theorems not listed below.
* `propext, Quot.sound` (160): `SimTime.reported_cfl_of_accepted_step`, `SimTime.min_dt_abort_iff_cfl_partial`, `SimTime.min_dt_abort_iff`, `SimTime.loop_bookkeeping`, `SimTime.time_is_sum_of_steps`, `SimTime.max_step_bounds_run`, `SimTime.max_step_zero_no_steps`, `SimTime.no_criterion_never_stops`, `SimTime.shortened_only_for_a_reason`, `SimTime.parse_accepts_iff_valid`, `SimTime.parse_result`, `SimTime.min_tol_le_enforced`, `FieldRepo.declare_zero_states_corrupts`, `FieldRepo.too_many_states`, `FieldRepo.redeclare_ngrow_ignored`, `MeshMapping.repeated_call_warns`, `MeshMapping.non_vector_aborts`, `MeshMapping.copy_keeps_flag_meaning_partial`, `MeshMapping.too_many_components_out_of_range`, `Interp.linear_short_table`, `Tag.static_refinement_other_levels`, `Tag.geometric_refinement_other_levels`, `Vs.reflect_spec`, `Vs.unitProjection_spec`, `Averaging.doAvg_iff_no_phase`, `IO.header_bad_shape_rejected`, `IO.restart_continues_fixed_partial`, `IO.restart_next_step_adaptive_partial`, `IO.real_from_int`, `IO.subvolume_columns_wrong`, `IO.subvolume_two_fields_wrong`, `Vof.each_direction_once`, `Vof.order_rotates`, `Vof.restart_order`, `Plane.hvelmag_cell_returns`, `Plane.moment_last_plane`, `Amr.reduce_spec`, `Config.getVec_effective`, `Config.getEither_effective`, `Config.query_either_mixes_namespaces`, `Config.query_vector_mixes_namespaces`, `Config.factory_last`, `Config.collection_stable`, `Config.udfs_spec`, `Config.registered_known`, `Udf.linear_profile_degenerate`, `Udf.two_layer_spec_partial`, `Udf.two_layer_ignores_vertical`, `Sampling.columns_match`, `Sampling.particle_ids`, `Sampling.netcdf_needs_velocity`, `FreeSurface.checkBound_id`, `FreeSurface.one_instance`, `Fllc.grow_stable`, `Spread.copyPos_history`, `Meso.direct_to_constant_unset`, `Meso.indirect_height`, `Meso.tendency_needs_scheme`, `Init.profile_height_spec`, `Init.profile_missing`, `Init.file_cells`, `Init.fill_collective`, `Stats.sfs_rigid`, `Bndry.netcdf_read_wrong`, `Overset.mask_restored`, `Overset.mask_in_projection`, `Overset.clip_zero`, `Overset.set_density_spec`, `Overset.patch_count`, `Overset.updates_safe_partial`, `Overset.regrid_null`, `Adv.time_centred_partial`, `Adv.shared_face_twice`, `Adv.mol_tile_independent`, `Adv.constant_density_input`, `Exact.chan_error_laminar`, `Case.ring_divergence`, `Nodal.true_pressure`, `Beam.radar_point_numbers`, `Beam.line_average_spec`, `Beam.los_other_cones`, `Beam.cone_points_overrun`, `Ext.blade_widths`, `Ext.tower_widths`, `Ext.density_accepts`, `Ext.correction_points`, `Ext.correction_lags`, `Ext.correction_reads_outside`, `Ext.checkpoint_by_time`, `Ext.replay_uses_older_run`, `Wbc.blanked_iff`, `W2a.early_end_loops`, `Start.query_last`, `Start.restart_starts_at_once`, `Start.new_run_order`, `Start.iterations_keep_flow`, `Start.iterations_pressure`, `Subvol.sizes_spec`, `Cosim.empty_fails`, `Cosim.publications`, `Cosim.controller_gets_all`, `Cosim.own_turbine_blocks`, `Cosim.start_values`, `Kyn.point_is_node`, `Kyn.node_is_point`, `Kyn.places_spec`, `Kyn.loads_reach`, `Kyn.velocities_reach`, `Iter.fixed_forever`, `Iter.density_seen`, `Iter.predictor_force`, `Small.overset_not_marked`, `Small.overset_marks`, `Small.perturbed_where_partial`, `Small.perturbed_height`, `Small.start_level_ignored`, `Small.no_box`, `Solver.unknown_solver_silent`, `Airfoil.text_table_partial`, `Airfoil.truncated_accepted`, `Mph.starts_iff`, `Mph.levelset_never_starts`, `Nc.mem_indices`, `Nc.has_iff`, `Nc.dim_has_name`, `Nc.all_vars_spec`, `Nc.all_dims_iff_partial`, `Bplane.layout_disjoint`, `Bplane.recording_run`, `Bplane.last_recording`, `Regrid.masks_one`, `Regrid.old_state_restored`, `FieldOps.defined_iff`, `Eff.stops_iff`, `Wio.axis_partial`, `Wio.axis_cut`, `Wio.tower_partial`, `Wio.blade_sections`, `Tools.refine_only_one`, `Tools.refine_spec`, `Tools.ratio_four_masks`, `Tools.last_level_read`, `Bscript.boxes_defined_iff`, `Bscript.boxes_low`, `Bscript.default_ratios`, `Bscript.refine_boxes_partial`, `Bscript.recorded_bounds`, `Sscript.sampler_index`, `Cscript.convert_defined_iff`, `Cscript.convert_values`, `Iscript.found_iff`, `Iscript.found_window`, `Hscript.time_partial`, `Win.slice_window`, `Win.accepted_iff`, `Win.velocities_in_turn`, `Win.rest_partial`, `Win.rest_behind_wrong`, `Win.before_wrong`, `Select.keys_apart`
* `propext` (54): `Averaging.updateAll_count`, `Averaging.add_averaging_twice`, `IO.parse_plain`, `Config.extrap_bcrec`, `Config.contains_iff_effective`, `Config.get_effective`, `Config.query_effective`, `Config.getarr_effective`, `Config.queryarr_effective_partial`, `Config.queryarr_overlay`, `Config.queryEither_effective_partial`, `Config.queryVec_effective_partial`, `Config.scalar_inflow_required`, `Config.udf_last_kind_wins`, `Config.pressure_read`, `Config.scalar_required_iff`, `FreeSurface.instances_scrambled`, `Fvm.order_complete`, `Force.rows_complete`, `Force.body_refused`, `Buoy.profile_file_ignored`, `Step.normal_velocity_given`, `Step.tangential_velocity`, `Step.refused_kinds`, `Step.scalar_kinds`, `Overset.options_spec`, `Adv.scheme_spec`, `Nodal.bc_table`, `Beam.cone_points_enough`, `Ext.fresh_run`, `Ext.restart_run`, `Ext.replay_calls`, `Ext.replay_velocity`, `Ext.replay_refused`, `Ext.replay_of_run`, `Ext.replay_start_differs`, `Ext.replay_one_step_ahead`, `Ext.replay_appends`, `Wbc.face_values`, `Wbc.profile_dropped`, `Inflow.abl_leaves_faces`, `Inflow.abl_sets_faces`, `Kyn.begin_spec`, `Airfoil.three_columns_wrong`, `Bplane.other_runs`, `Bplane.format_used`, `Iscript.update_none`, `Iscript.update_once`, `Iscript.old_value_wrong`, `Iscript.others_kept`, `IO.asc_defined_iff`, `Hscript.parse_partial`, `Hscript.underscore_wrong`, `Hscript.time_twice_wrong`
* no axiom (15): `Averaging.pairs_order`, `Disk.spreading_unchecked`, `Force.rows_truncated`, `Force.body_kind`, `Overset.plain_mask`, `Adv.same_reconstruction`, `Adv.recon_injective`, `Adv.projection_bc`, `Exact.chan_error_smag`, `Beam.netcdf_needs_velocity`, `Iter.divtau_left_out`, `Nc.close_once`, `Nc.way_up_wrong`, `ActOut.layout_matches`, `Prog.check_append`
