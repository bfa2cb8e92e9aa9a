{"id": "C01", "title": "A time step shortened for output lands on, and never steps over, the next output time", "statement": "When the time step is shortened for an enforced output interval I, the returned step is never larger than the requested one, is strictly positive, cur+dt never passes the first multiple of I lying more than tol*I beyond cur, and equals that multiple exactly whenever the requested step would have reached it.", "quantifier": "every current time, requested step, interval > 0 and tolerance in [0,1)", "why_tests_cant": "the floor/tolerance arithmetic has a different branch on each side of every multiple; a test samples a handful of times", "anchors": ["amr-wind/core/SimTime.H:get_enforced_dt_for_output"]}
{"id": "C02", "title": "Adaptive steps respect the CFL limit", "statement": "After SimTime::set_current_cfl in adaptive mode (outside the delay window and outside the use-initial-dt start-up case) the resulting step satisfies 0.5*(cd+sqrt(cd^2+4*src))*dt <= time.cfl, whatever output enforcement, growth limit and stop time are configured.", "quantifier": "every non-negative convective, diffusive and source CFL value and every time manager state and configuration", "why_tests_cant": "there are eight interacting reductions of dt; no finite set of inputs covers their combinations", "anchors": ["amr-wind/core/SimTime.cpp:SimTime::set_current_cfl"]}
{"id": "C03", "title": "An adaptive run never passes stop_time, a fixed-step run passes it by less than one step", "statement": "In every run of the time loop started before stop_time, with adaptive stepping outside the delay window, every time reached is <= stop_time; with a fixed step it is < stop_time + fixed_dt.", "quantifier": "every sequence of CFL inputs, of any length", "why_tests_cant": "it is an invariant over unbounded histories of the time loop", "anchors": ["amr-wind/core/SimTime.cpp:SimTime::set_current_cfl", "amr-wind/core/SimTime.cpp:SimTime::continue_simulation", "amr-wind/incflo.cpp:incflo::Evolve"]}
{"id": "C04", "title": "Step growth is bounded", "statement": "Over any adaptive run (outside the delay window) consecutive steps satisfy dt_{n+1} <= (1+max_dt_growth)*dt_n, so dt_n <= (1+max_dt_growth)^n*dt_0, and dt_n <= max_dt when max_dt is set.", "quantifier": "every history of CFL inputs of any length", "why_tests_cant": "compounded bound over unbounded histories", "anchors": ["amr-wind/core/SimTime.cpp:SimTime::set_current_cfl"]}
{"id": "C05", "title": "min_dt stops a run only because of the CFL restriction", "statement": "The simulation aborts with the min_dt message exactly when the CFL restriction reduced the step below min_dt.", "quantifier": "every state and configuration with min_dt > 0", "why_tests_cant": "the failing case needs an output-shortened step followed by a growth-limited one", "anchors": ["amr-wind/core/SimTime.cpp:SimTime::set_current_cfl"]}
{"id": "C06", "title": "The time loop advances: positive steps, monotone time, exact bookkeeping", "statement": "In every run: each accepted adaptive step outside the delay window is > 0, current_time of a step equals new_time of the previous one, new_time = current_time + delta_t, the step index counts the steps, delta_t_nm1/nm2 are the steps of the previous two iterations, and new_time = start + sum of steps.", "quantifier": "every history of CFL inputs of any length", "why_tests_cant": "inductive invariant over unbounded histories", "anchors": ["amr-wind/core/SimTime.cpp:SimTime::new_timestep", "amr-wind/core/SimTime.cpp:SimTime::advance_time"]}
{"id": "C07", "title": "The time loop stops when it is told to", "statement": "With max_step = N > 0 the loop performs at most N - start_index steps and stops at index N; with stop_time set and steps bounded below by d > 0 it stops after at most (stop_time - start)/d + 1 steps; with neither set it never stops by itself; max_step = 0 performs no step.", "quantifier": "every history, every configuration", "why_tests_cant": "termination is a statement about all runs", "anchors": ["amr-wind/core/SimTime.cpp:SimTime::continue_simulation", "amr-wind/incflo.cpp:incflo::Evolve"]}
{"id": "C08", "title": "Step-based plot and checkpoint schedule, with exactly one file for the last step", "statement": "With an output interval n > 0 (steps) a file is written at a step iff the step is past the delay and congruent to the start index mod n; at the end of the run a file for the last step is written iff none was written by the regular schedule.", "quantifier": "every index, start index, interval, delay and run length", "why_tests_cant": "modular arithmetic over unbounded indices; the last-step claim fails only in the delay window", "anchors": ["amr-wind/core/SimTime.cpp:SimTime::write_plot_file", "amr-wind/core/SimTime.cpp:SimTime::write_last_plot_file", "amr-wind/incflo.cpp:incflo::Evolve"]}
{"id": "C09", "title": "Time-based output fires exactly once per interval", "statement": "With a time interval I, an output is due at a step iff some start_time + k*I lies in (new_time - dt + tol, new_time + tol]; hence with constant dt <= I every target time produces exactly one output.", "quantifier": "every time, step, interval, tolerance and every run of constant-step", "why_tests_cant": "needs all reals and all steps; failing cases depend on step-size changes", "anchors": ["amr-wind/core/SimTime.cpp:SimTime::write_plot_file", "amr-wind/core/SimTime.cpp:SimTime::write_checkpoint"]}
{"id": "C10", "title": "An enforced output time interval produces its output at the time it was enforced for", "statement": "If time-based plots are enforced on dt, then whenever a step is shortened to land on an output time, a plot file is written at that time.", "quantifier": "every run and restart time", "why_tests_cant": "depends on the restart time being a multiple of the interval, which unit tests do not vary", "anchors": ["amr-wind/core/SimTime.cpp:SimTime::set_current_cfl", "amr-wind/core/SimTime.cpp:SimTime::write_plot_file", "amr-wind/core/SimTime.cpp:SimTime::set_restart_time"]}
{"id": "C11", "title": "Regrid schedule", "statement": "A regrid happens at a step iff regrid_interval > 0 and the step index is a positive multiple of it beyond the start index; never at the start step; and exactly floor(n/interval) times in n steps.", "quantifier": "every index and interval, every run length", "why_tests_cant": "count over unbounded runs", "anchors": ["amr-wind/core/SimTime.cpp:SimTime::do_regrid"]}
{"id": "C12", "title": "Post-processing output schedule and final output", "statement": "A post-processing object writes at most once per step, writes at a step iff its schedule says so, and final_output writes exactly when the last step was not written by the schedule, so the last step is always present exactly once.", "quantifier": "every configuration accepted by the parser, every run", "why_tests_cant": "all combinations of interval/time/delay/restart/start parameters", "anchors": ["amr-wind/utilities/PostProcessing.cpp:PostProcessBase::do_output_now", "amr-wind/utilities/PostProcessing.cpp:PostProcessManager::final_output"]}
{"id": "C13", "title": "Output configuration is validated", "statement": "A configuration that parsing accepts never has both a step and a time interval for the same kind of output, never enforces dt without a time interval, and (time manager) never enforces with a fixed step; every configuration violating one of these is rejected.", "quantifier": "every combination of input parameters", "why_tests_cant": "finite tests cannot cover all real-valued parameters; the accepted set must be characterised", "anchors": ["amr-wind/core/SimTime.cpp:SimTime::parse_parameters", "amr-wind/utilities/PostProcessing.cpp:PostProcessBase::populate_output_parameters"]}
{"id": "C14", "title": "Field registry stays consistent under any sequence of declarations", "statement": "After any sequence of field declarations, each asking for at least one time state, of level creations, regrids and state shifts, each name resolves to exactly one field, the field found under a name has that name, ids are dense and equal storage positions, previously declared fields keep their id, component count and location, and every level holds one array per field.", "quantifier": "every sequence of declarations of any length", "why_tests_cant": "invariant over all operation sequences", "anchors": ["amr-wind/core/FieldRepo.cpp:FieldRepo::declare_field", "amr-wind/core/FieldRepo.cpp:FieldRepo::create_state", "amr-wind/core/FieldRepo.H"]}
{"id": "C15", "title": "Redeclaring a field returns the same field or aborts", "statement": "Declaring an existing name with the same component count, state count and location returns the existing field and changes nothing; with a different one it aborts; names reserved for old time states are rejected.", "quantifier": "every registry state reachable by declarations", "why_tests_cant": "all histories and all names", "anchors": ["amr-wind/core/FieldRepo.cpp:FieldRepo::declare_field"]}
{"id": "C16", "title": "Advancing time states shifts the history", "statement": "For a field with k states, advance_states copies New to Old (and Old to older ones) without losing the newest value and leaves other fields untouched; after n advances with fresh New values the older states hold the values of the previous steps.", "quantifier": "every number of states supported, every history of values", "why_tests_cant": "order-of-copy bugs only show on particular histories", "anchors": ["amr-wind/core/Field.cpp:Field::advance_states"]}
{"id": "C17", "title": "Stretched/uniform mesh-mapping transforms are inverse to each other", "statement": "to_uniform_space followed by to_stretched_space (and the reverse) returns the original field for every field location and component and tracks the in-uniform-space flag over any sequence of calls; a repeated call changes nothing and warns; a field that is not a vector is rejected.", "quantifier": "every field value and non-zero scale factor", "why_tests_cant": "all real values; depends on non-zero Jacobian", "anchors": ["amr-wind/core/Field.cpp:Field::to_uniform_space", "amr-wind/core/Field.cpp:Field::to_stretched_space"]}
{"id": "C18", "title": "Table lookup brackets the query and never reads outside the table", "statement": "bisection_search/find_index/nearest_search on a sorted table return either the out-of-range limits exactly when the query is outside, or an index i with x[i] <= q <= x[i+1]; all accesses stay in range for any (even unsorted) table of at least 2 points.", "quantifier": "every table length, every sorted table, every query", "why_tests_cant": "loop invariant over arbitrary table size", "anchors": ["amr-wind/utilities/linear_interpolation.H:bisection_search", "amr-wind/utilities/linear_interpolation.H:nearest_search", "amr-wind/utilities/linear_interpolation.H:find_index"]}
{"id": "C19", "title": "Linear interpolation is exact at the nodes, bounded by the data and monotone", "statement": "interp::linear returns the node value at a node, stays between the two neighbouring values, clamps outside the table, reproduces affine data, and is monotone for monotone data.", "quantifier": "every strictly increasing table whose spacing exceeds single-precision epsilon (for exactness at nodes and affine data), every query point, any number of components", "why_tests_cant": "all reals", "anchors": ["amr-wind/utilities/linear_interpolation.H:linear"]}
{"id": "C20", "title": "The monotone vector interpolation equals the general one on sorted queries", "statement": "linear_monotonic produces, for every nondecreasing list of queries, the same result as interp::linear on each query.", "quantifier": "every table and every nondecreasing query list of any length", "why_tests_cant": "running-index loop invariant; failing inputs are unsorted queries", "anchors": ["amr-wind/utilities/linear_interpolation.H:linear_monotonic"]}
{"id": "C21", "title": "Angle interpolation goes the short way round", "statement": "linear_angle returns an angle on the shorter arc between the two neighbouring table angles, and equal to them modulo the upper bound at the nodes.", "quantifier": "every table of angles and every query", "why_tests_cant": "wrap-around cases", "anchors": ["amr-wind/utilities/linear_interpolation.H:linear_angle"]}
{"id": "C22", "title": "Bilinear interpolation is exact at grid nodes and bounded by the four corners", "statement": "interp::bilinear equals the table value at nodes, lies between min and max of the cell's four corner values, and is exact for bilinear data.", "quantifier": "every rectangular table and query", "why_tests_cant": "all reals", "anchors": ["amr-wind/utilities/linear_interpolation.H:bilinear"]}
{"id": "C23", "title": "Real boxes map to index boxes that cover them", "statement": "The index box computed from a physical box contains every cell whose interior meets the physical box and no cell further than one cell away.", "quantifier": "every physical box and mesh", "why_tests_cant": "floor/ceil at cell faces", "anchors": ["amr-wind/utilities/index_operations.cpp:realbox_to_box"]}
{"id": "C24", "title": "Time averages are true time averages", "statement": "With a filter window T, as long as the elapsed averaging time is <= T the stored average equals the time-weighted mean of all samples since the start, and it is always a convex combination of the samples (bounded by their min and max) at any later time.", "quantifier": "every sequence of positive steps and sample values of any length", "why_tests_cant": "induction over unbounded histories", "anchors": ["amr-wind/utilities/averaging/ReAveraging.cpp", "amr-wind/utilities/averaging/TimeAveraging.cpp"]}
{"id": "C25", "title": "Every registered average is updated exactly once per step", "statement": "Each field average requested by any averaging group is updated exactly once per time step, however often it is requested.", "quantifier": "every configuration of averaging requests", "why_tests_cant": "duplicates across groups", "anchors": ["amr-wind/utilities/averaging/TimeAveraging.cpp:TimeAveraging::add_averaging"]}
{"id": "C26", "title": "Reynolds stresses are consistent", "statement": "The diagonal Reynolds stress produced by the averaging equals the averaged product minus product of averages and is >= 0 over the full averaging history.", "quantifier": "every history of samples with positive weights", "why_tests_cant": "variance non-negativity over unbounded histories", "anchors": ["amr-wind/utilities/averaging/ReynoldsStress.cpp"]}
{"id": "C27", "title": "Checkpoint header round trip", "statement": "Reading back the header written by write_checkpoint_file restores time index, time, the three step sizes, the number of levels and the box arrays of every level; a header with a different shape is rejected.", "quantifier": "every reachable time state and grid hierarchy", "why_tests_cant": "all sizes and values", "anchors": ["amr-wind/utilities/IOManager.cpp:IOManager::write_header", "amr-wind/utilities/io.cpp"]}
{"id": "C28", "title": "Replicated restart covers the domain exactly once", "statement": "Restarting with a replication factor fills every cell of the enlarged domain from exactly one source cell, the cell with the same position modulo the original size, on every level.", "quantifier": "every domain size, level and replication factor", "why_tests_cant": "modular arithmetic for all sizes", "anchors": ["amr-wind/utilities/IOManager.cpp:IOManager::read_checkpoint_fields"]}
{"id": "C29", "title": "Plot files: names and data columns match", "statement": "The component k of the written plot data is the component named by the k-th variable name, for any list of requested fields, int fields and derived quantities; the number of names equals the number of components.", "quantifier": "every list of requested outputs", "why_tests_cant": "all lists and component counts", "anchors": ["amr-wind/utilities/IOManager.cpp:IOManager::write_plot_file", "amr-wind/utilities/IOManager.cpp:IOManager::initialize_io"]}
{"id": "C30", "title": "Subvolume output: names and data columns match", "statement": "The component k of a subvolume file is the component named by the k-th variable name, for any list of requested fields.", "quantifier": "every list of requested fields", "why_tests_cant": "existing tests sample a single field; the defect needs two", "anchors": ["amr-wind/utilities/subvolume/Subvolume.cpp:Subvolume::output_actions"]}
{"id": "C31", "title": "Derived quantity manager: create is idempotent and lookup is stable", "statement": "create(key) returns the quantity for that key, the same one on a second call, and filter removes exactly the named quantities without changing what the other keys resolve to.", "quantifier": "every sequence of create/filter calls", "why_tests_cant": "operation sequences", "anchors": ["amr-wind/utilities/DerivedQuantity.cpp:DerivedQtyMgr::create", "amr-wind/utilities/DerivedQuantity.cpp:DerivedQtyMgr::filter"]}
{"id": "C32", "title": "Volume fractions stay in [0,1]", "statement": "After any number of advection steps with any velocity, every volume fraction is in [0,1], and no sub-threshold debris survives the cleanup.", "quantifier": "every velocity field, initial field, grid size and number of steps", "why_tests_cant": "unbounded histories and real inputs", "anchors": ["amr-wind/equation_systems/vof/split_advection.H", "amr-wind/equation_systems/vof/SplitAdvection.cpp"]}
{"id": "C33", "title": "Volume is conserved by the advection step", "statement": "On a periodic or closed domain with a discretely divergence-free velocity the sum of volume fractions is unchanged by one full (three-sweep) advection step, as long as no value is clipped and debris removal takes nothing; debris removal never adds volume.", "quantifier": "every velocity field, volume fraction field and grid size", "why_tests_cant": "telescoping sum over arbitrary grids", "anchors": ["amr-wind/equation_systems/vof/split_advection.H:eulerian_implicit", "amr-wind/equation_systems/vof/split_advection.H:balance_eulerian_fluxes"]}
{"id": "C34", "title": "Directional sweeps are a permutation in every step", "statement": "Each of the three directions is swept exactly once per step, the order rotates, and each order is used every third step.", "quantifier": "every step number", "why_tests_cant": "all step numbers; restart continuity is not tested", "anchors": ["amr-wind/equation_systems/vof/SplitAdvection.cpp:multiphase::split_advection_step", "amr-wind/equation_systems/vof/vof_advection.H"]}
{"id": "C35", "title": "Plane-cut volumes are volumes", "statement": "cut_volume returns a value in [0,1], monotone in the plane intercept, symmetric under permutation of the normal, 0 and 1 exactly at the limits, and equals the volume under the plane.", "quantifier": "every non-negative normal and intercept", "why_tests_cant": "piecewise cubic with five branches over the reals", "anchors": ["amr-wind/equation_systems/vof/volume_fractions.H:cut_volume"]}
{"id": "C36", "title": "volume_intercept inverts cut_volume", "statement": "The plane found for a volume fraction c cuts off exactly the volume c.", "quantifier": "every normal and every c in [0,1]", "why_tests_cant": "needs the inverse of a piecewise cubic for all reals", "anchors": ["amr-wind/equation_systems/vof/volume_fractions.H:volume_intercept"]}
{"id": "C37", "title": "Static refinement boxes are tagged completely", "statement": "Every cell whose interior meets a requested Cartesian refinement region is tagged and no cell outside the region grown by one cell is.", "quantifier": "every region and mesh", "why_tests_cant": "floor/ceil corner cases", "anchors": ["amr-wind/utilities/tagging/CartBoxRefinement.cpp"]}
{"id": "C38", "title": "Geometric refinement tags exactly the cell centres inside the shape, independent of the grid decomposition", "statement": "Cylinder, box and user-defined-function refinement tag a cell iff its centre lies in the shape; the tile-skipping bounding boxes never lose a cell, so the result does not depend on the decomposition into tiles.", "quantifier": "every shape, mesh and decomposition", "why_tests_cant": "depends on the decomposition, which tests fix", "anchors": ["amr-wind/utilities/tagging/CylinderRefiner.cpp", "amr-wind/utilities/tagging/BoxRefiner.cpp", "amr-wind/utilities/tagging/UDFRefiner.cpp", "amr-wind/utilities/tagging/GeometryRefinement.cpp"]}
{"id": "C39", "title": "Plane averages are means and independent of the decomposition", "statement": "The plane average at index k is the arithmetic mean of the cells in that plane for every partition of the domain into boxes, lies between the extreme cell values, and its interpolation to any height is a convex combination of the neighbouring averages.", "quantifier": "every field, partition and grid size (for interpolation: at least two planes along the axis)", "why_tests_cant": "all partitions and sizes", "anchors": ["amr-wind/utilities/FieldPlaneAveraging.cpp"]}
{"id": "C40", "title": "Each plane-averaging accessor returns its own quantity", "statement": "line_hvelmag_average_cell(i) returns the horizontal-speed average at index i.", "quantifier": "every field", "why_tests_cant": "the accessor is not covered and differs silently", "anchors": ["amr-wind/utilities/FieldPlaneAveraging.cpp:VelPlaneAveraging::line_hvelmag_average_cell"]}
{"id": "C41", "title": "Wave relaxation weights are in [0,1], monotone and continuous", "statement": "gamma_generate and gamma_absorb lie in [0,1], are monotone and reach 0/1 at the ends; combining profiles with them stays between the two profiles; free_surface_to_vof is the clamped submerged fraction in [0,1], monotone in the elevation.", "quantifier": "every position, zone length > 0 and profile value", "why_tests_cant": "all reals", "anchors": ["amr-wind/ocean_waves/utils/wave_utils_K.H"]}
{"id": "C42", "title": "The channel mesh map is a strictly increasing map with the stated scale factor", "statement": "The coordinate map of ChannelFlowMap is strictly increasing, fixes both ends of the domain, and its derivative is the scale factor, which is positive.", "quantifier": "every stretching beta > 0 and point", "why_tests_cant": "calculus over all reals", "anchors": ["amr-wind/mesh_mapping_models/ChannelFlowMap.cpp"]}
{"id": "C43", "title": "Mixture density stays between the phase densities", "statement": "set_density_via_vof and set_density_via_levelset give a density between the two phase densities for volume fraction in [0,1] and any level set, monotone in it.", "quantifier": "every vof in [0,1], level set, thickness > 0", "why_tests_cant": "all reals", "anchors": ["amr-wind/physics/multiphase/MultiPhase.cpp"]}
{"id": "C44", "title": "Boundary type parsing is total and unambiguous", "statement": "For every face the input gives exactly one boundary type or aborts; periodic faces must agree with the geometry; unknown names abort.", "quantifier": "every input string", "why_tests_cant": "all strings", "anchors": ["amr-wind/boundary_conditions/BCInterface.cpp:BCIface::read_bctype"]}
{"id": "C45", "title": "Layered parameters: specific overrides default", "statement": "A parameter looked up through MultiParser takes the value from the specific namespace if present, otherwise from the default one; contains() is true iff a query would find it.", "quantifier": "every set of parameters", "why_tests_cant": "all maps", "anchors": ["amr-wind/core/MultiParser.H"]}
{"id": "C46", "title": "Object collections resolve keys to the object created for them", "statement": "In a collection manager every created object is found under its key, duplicates are returned not re-created, and iteration visits objects in creation order.", "quantifier": "every sequence of creations", "why_tests_cant": "operation sequences", "anchors": ["amr-wind/core/CollMgr.H", "amr-wind/core/Factory.H"]}
{"id": "C47", "title": "Extrema over a mask do not depend on the number of ranks", "statement": "The masked extrema diagnostic reports 'found' iff some masked cell exists on some rank, and the extrema over all of them.", "quantifier": "every distribution of cells over ranks", "why_tests_cant": "tests run on one rank", "anchors": ["amr-wind/utilities/diagnostics.cpp:get_field_extrema"]}
{"id": "C48", "title": "Line, plane and volume samplers place the requested points", "statement": "The sampler with n points produces the points start + i*(end-start)/(n-1), first and last exactly at start and end, all within the domain when start and end are, and each point belongs to exactly one box of any partition.", "quantifier": "every n >= 1, start, end and partition of the domain", "why_tests_cant": "all counts and partitions", "anchors": ["amr-wind/utilities/sampling/LineSampler.cpp", "amr-wind/utilities/sampling/PlaneSampler.cpp"]}
{"id": "C49", "title": "Similarity-theory iteration terminates and neutral conditions give the log law", "statement": "update_fluxes performs at most max_iters+1 iterations, and with zero heat flux returns utau = kappa*U/ln(z/z0) exactly; the stability functions vanish at zero and are continuous there.", "quantifier": "every state", "why_tests_cant": "all reals; loop bound", "anchors": ["amr-wind/wind_energy/MOData.cpp"]}
{"id": "C50", "title": "Lifting-line point distribution terminates, is increasing and ends at the tip", "statement": "The non-uniform points used by the filtered lifting line correction are strictly increasing, start at the root, end exactly at the tip, satisfy spacing <= epsilon/ratio at their start point, and the loop terminates.", "quantifier": "every chord distribution with positive epsilon", "why_tests_cant": "termination for all inputs", "anchors": ["amr-wind/wind_energy/actuator/FLLC.cpp:fllc_init"]}
{"id": "C51", "title": "Rotations are isometries", "statement": "The rotation tensors built by vs::xrot/yrot/zrot/quaternion preserve length and dot products, and reflect is an involution for a unit direction.", "quantifier": "every angle, unit axis and vector", "why_tests_cant": "all reals", "anchors": ["amr-wind/core/vs/tensor.H", "amr-wind/core/vs/tensorI.H", "amr-wind/utilities/sampling/SamplingUtils.cpp"]}
{"id": "C52", "title": "Output of the initial state does not depend on the step mode", "statement": "With time-based post-processing output, whether the initial state (time equal to the output start time, no delay) is written does not depend on whether the time step is fixed or adaptive, and a run that asks for output after the final step writes its final state even if it makes no step.", "quantifier": "every schedule and step mode", "why_tests_cant": "interaction of initialisation order and schedule; tests use one mode", "anchors": ["amr-wind/utilities/PostProcessing.cpp:PostProcessManager::post_init_actions", "amr-wind/utilities/PostProcessing.H:do_output_now"]}
{"id": "C54", "title": "A flat interface is reconstructed and swept exactly", "statement": "In a layered volume fraction field (depending on one coordinate only) the fitted plane of a partly filled cell is normal to that axis, points from fluid to void and sits at the height given by the volume fraction; every sweep then carries exactly the geometric share of the swept slab.", "quantifier": "every volume fraction, layer profile, axis and sign, sweep direction and Courant number", "why_tests_cant": "real inputs; tests use a few planes within tolerances", "anchors": ["amr-wind/equation_systems/vof/volume_fractions.H:mixed_youngs_central_normal", "amr-wind/equation_systems/vof/volume_fractions.H:fit_plane", "amr-wind/equation_systems/vof/split_advection.H:eulerian_implicit"]}
{"id": "C53", "title": "Looking up the interval that brackets a value", "statement": "Looking up a time in a sorted list of recorded times returns the index of the interval that contains it; a time beyond the last entry by no more than the tolerance is looked up at time minus tolerance; anything later is rejected; a time before the first entry gives interval 0.", "quantifier": "every sorted list, value and tolerance", "why_tests_cant": "real inputs and boundary cases; tests use one list", "anchors": ["amr-wind/utilities/index_operations.H:closest_index"]}
{"id": "C55", "title": "Second and third plane moments and their accessors", "statement": "The second (third) moment of a plane for a pair (triple) of components is the mean over the plane of the product of the fluctuations about the plane averages; variances are not negative; line_average_cell(plane, component indices) returns that moment for every plane and all fields.", "quantifier": "every field, number of components, partition, plane and component indices", "why_tests_cant": "all combinations of component counts; tests use equal counts", "anchors": ["amr-wind/utilities/SecondMomentAveraging.cpp", "amr-wind/utilities/ThirdMomentAveraging.cpp"]}
{"id": "C56", "title": "Plane averages over a refined mesh", "statement": "On a mesh with several levels the average at each line position is the mean over the composite solution (each point takes its value from the finest level there): cells covered by finer ones do not count, the weights are non-negative and add up to one, linear profiles along the axis are reproduced at the line positions, and the average lies between the extreme values of the field.", "quantifier": "every hierarchy of levels whose uncovered cells tile the domain, refinement ratio, axis, distribution over ranks and field", "why_tests_cant": "all hierarchies and partitions", "anchors": ["amr-wind/utilities/FieldPlaneAveragingFine.cpp"]}
{"id": "C58", "title": "Relaxation zones keep the solution admissible and never pass the target", "statement": "In a relaxation zone the volume fraction stays in [0,1], the density is that of the new volume fraction, cells outside the zones or near terrain are untouched, and the velocity moves towards the target velocity without passing it.", "quantifier": "every weight, ramp factor, densities, target and cell state", "why_tests_cant": "real inputs; tests use one profile", "anchors": ["amr-wind/ocean_waves/relaxation_zones/relaxation_zones_ops.cpp:apply_relaxation_zones"]}
{"id": "C59", "title": "Linear waves solve the linear wave equations", "statement": "The target velocity of a linear wave is divergence free and irrotational, vanishes normal to the bottom, satisfies the linearised surface conditions (with the current), repeats after one wavelength, travels with the phase speed, and the initial wave field is the target at time zero.", "quantifier": "every wave, position and time", "why_tests_cant": "calculus over all reals", "anchors": ["amr-wind/ocean_waves/relaxation_zones/linear_waves_ops.H"]}
{"id": "C60", "title": "The wavelength computed from a period satisfies the dispersion relation", "statement": "For every wave period, depth and height a wavelength is computed, and its wavenumber satisfies the dispersion relation of the requested order to the requested tolerance.", "quantifier": "every period, depth, height, order, tolerance and number of iterations", "why_tests_cant": "iteration over reals; tests use three short periods", "anchors": ["amr-wind/ocean_waves/relaxation_zones/stokes_waves_K.H:stokes_wave_length"]}
{"id": "C61", "title": "Stokes waves are incompressible, have the requested height and mean level", "statement": "At every order the elevation has the requested height from crest to trough and the sea level as mean, repeats after one wavelength, and the velocity is divergence free, irrotational and vanishes normal to the bottom; to second order the coefficients are those of the classical expansion.", "quantifier": "every order, wave, position and time", "why_tests_cant": "calculus over all reals", "anchors": ["amr-wind/ocean_waves/relaxation_zones/stokes_waves_K.H:stokes_waves"]}
{"id": "C62", "title": "The hydrostatic reference state is in discrete balance", "statement": "For every water level, in every cell of the domain the difference of the reference pressure between its upper and lower nodes equals reference density times gravity times cell height; the pressure is the weight of the liquid and gas above and does not depend on the level of refinement.", "quantifier": "every water level, phase densities, gravity, mesh and cell", "why_tests_cant": "all reals and all cells", "anchors": ["amr-wind/physics/multiphase/hydrostatic_ops.H"]}
{"id": "C63", "title": "Volume fractions from a level set are wetted volumes", "statement": "For a level set that is linear around a cell, levelset_to_vof and MultiPhase::levelset2vof return the fraction of the cell where the level set is not negative.", "quantifier": "every linear level set, cell and mesh", "why_tests_cant": "geometry over all reals", "anchors": ["amr-wind/equation_systems/vof/volume_fractions.H:levelset_to_vof", "amr-wind/physics/multiphase/MultiPhase.cpp:levelset2vof"]}
{"id": "C57", "title": "The reported extreme velocities and their place", "statement": "The maximum and minimum velocity diagnostics report the extreme values over the cells (or faces) that no finer level covers, over all ranks, and the place they report is the centre of a cell with that value.", "quantifier": "every hierarchy, distribution and velocity field", "why_tests_cant": "all hierarchies; tests have one extreme cell", "anchors": ["amr-wind/utilities/diagnostics.cpp:PrintMaxVelLocations", "amr-wind/utilities/diagnostics.cpp:PrintMaxMACVelLocations"]}
{"id": "C64", "title": "Integral diagnostics count every point of the domain once", "statement": "On every refinement hierarchy the reported liquid volume, momentum, kinetic energy and enstrophy are the integrals (or volume averages) of the piecewise constant field, each point taken from the finest cell that covers it; they do not depend on boxes, ranks or refinement of the same field.", "quantifier": "every nested hierarchy, distribution of boxes and field", "why_tests_cant": "all hierarchies", "anchors": ["amr-wind/physics/multiphase/MultiPhase.cpp:volume_fraction_sum", "amr-wind/physics/multiphase/MultiPhase.cpp:momentum_sum", "amr-wind/utilities/sampling/KineticEnergy.cpp", "amr-wind/utilities/sampling/Enstrophy.cpp"]}
{"id": "C65", "title": "Field norms are norms of the field", "statement": "The reported 1-norm, 2-norm and infinity norm of every plotted field are the volume-averaged mean, root mean square and maximum of its magnitude over the domain, whatever the boxes and ranks.", "quantifier": "every hierarchy, field, data location and norm type", "why_tests_cant": "all hierarchies; tests use one level or cell-centred data", "anchors": ["amr-wind/utilities/sampling/FieldNorms.cpp:FieldNorms::get_norm"]}
{"id": "C66", "title": "Wave energy of still water", "statement": "The liquid kinetic energy is the integral of vof |u|^2/2; for water at rest the summed potential energy is the exact integral of g z over the liquid for every refinement and every position of the surface in its cells, and the reported potential energy (relative to rest) is zero.", "quantifier": "every hierarchy, water level and gravity", "why_tests_cant": "all reals and hierarchies", "anchors": ["amr-wind/utilities/sampling/WaveEnergy.cpp"]}
{"id": "C67", "title": "Dirichlet values and inflow functions reach the right ghost cells", "statement": "Ghost cells beyond one Dirichlet face get the value the user gave for that face (or the inflow function named for it), cells of the domain are never written, corners take the value of one of their faces; inconsistent function names abort; an inflow scalar without value aborts.", "quantifier": "every set of boundary types, inputs, domain and cell", "why_tests_cant": "all inputs and indices", "anchors": ["amr-wind/core/FieldBCOps.H:DirichletOp", "amr-wind/boundary_conditions/BCInterface.cpp:get_dirichlet_udfs", "amr-wind/boundary_conditions/velocity_bcs.H"]}
{"id": "C68", "title": "Outflow parts of inflow-outflow faces take the interior value", "statement": "On a mass_inflow_outflow face the first ghost layer takes the value of the interior neighbour where the velocity points out and keeps the prescribed value elsewhere; on a fixed-gradient face it holds the gradient; nothing else is written.", "quantifier": "every box, face, velocity and field", "why_tests_cant": "all reals and boxes", "anchors": ["amr-wind/boundary_conditions/MassInflowOutflowBC.cpp", "amr-wind/boundary_conditions/FixedGradientBC.cpp"]}
{"id": "C69", "title": "Inflow profiles have the documented values", "statement": "Linear profiles interpolate between the start and stop values and are continuous; power-law speeds are uref (z/zref)^s within [umin, umax]; two-layer, Rankine and lid profiles have the documented values, defined at every cell.", "quantifier": "every parameter set and cell centre", "why_tests_cant": "all reals", "anchors": ["amr-wind/physics/udfs/LinearProfile.H", "amr-wind/physics/udfs/PowerLawProfile.H", "amr-wind/physics/udfs/Rankine.H", "amr-wind/physics/udfs/TwoLayer.H", "amr-wind/physics/udfs/BurggrafLid.H"]}
{"id": "C70", "title": "The sampled data of every point reach the output at its place", "statement": "Whatever the boxes and ranks, a point inside the domain becomes exactly one particle, and the value written for a variable and a point of a sampler is the value of that variable at that point, at the position of the point in the sampler and of the variable in the list of variables.", "quantifier": "every list of samplers, box partition, distribution of particles over ranks and list of fields", "why_tests_cant": "all partitions and distributions; tests use one rank", "anchors": ["amr-wind/utilities/sampling/Sampling.cpp:create_output_buffer", "amr-wind/utilities/sampling/SamplingContainer.cpp:initialize_particles", "amr-wind/utilities/sampling/SamplingContainer.cpp:populate_buffer"]}
{"id": "C71", "title": "Sampling interpolates trilinearly", "statement": "The value of a field sampled at a point is exact at the data points and for trilinear fields, lies between the values of the data points around the point, depends on no others, and needs one layer of ghost cells, for cell, node and face fields.", "quantifier": "every field, location, point and mesh", "why_tests_cant": "all reals", "anchors": ["amr-wind/utilities/sampling/SamplingContainer.H:sample_field", "amr-wind/utilities/sampling/SamplingContainer.H:interpolate"]}
{"id": "C72", "title": "The free surface sampler reports the height of the surface", "statement": "Every point of the sampling plane is looked up in the column of cells that contains it, and the height reported for it (and for each further instance) is the height of the water there; for still water it is the water level at every point.", "quantifier": "every plane, number of points, search direction, mesh and water level", "why_tests_cant": "all reals and grids", "anchors": ["amr-wind/utilities/sampling/FreeSurfaceSampler.cpp:initialize", "amr-wind/utilities/sampling/FreeSurfaceSampler.cpp:update_sampling_locations"]}
{"id": "C73", "title": "Wall models carry the similarity stress and flux", "statement": "The mean of the wall stress over the plane is utau^2 in the direction of the mean wind, and the mean wall heat flux is the surface flux of the similarity law, positive flux heating the air, for every wall shear stress type; the stress opposes the wind in the cell for the local, Schumann and Donelan types and is zero under terrain.", "quantifier": "every plane of winds and temperatures with the given means, every state of the similarity data", "why_tests_cant": "all reals; tests check single values", "anchors": ["amr-wind/wind_energy/ShearStress.H", "amr-wind/wind_energy/ABLWallFunction.cpp:wall_model"]}
{"id": "C74", "title": "The filtered lifting line correction adds the missing induced velocity", "statement": "The lift used by the correction is the part of the force perpendicular to the wind; the correction vanishes where there is no lift and where the grid width equals the optimal width, it is finite and continuous as points approach each other, each step moves the correction a fixed fraction of the way to its target, and each force point gets the correction interpolated at its own place on the blade.", "quantifier": "every blade, force, wind and number of steps", "why_tests_cant": "all reals and histories", "anchors": ["amr-wind/wind_energy/actuator/FLLCOp.H:FLLCOp", "amr-wind/wind_energy/actuator/FLLC.cpp:fllc_init"]}
{"id": "C75", "title": "A disk actuator exerts the thrust its coefficient prescribes", "statement": "The points of the disk lie on the disk, their area weights are positive and sum to one, the velocity the disk acts on is a mean of the sampled velocities, the force on the fluid sums to the thrust of the thrust coefficient along the normal (and, for the Joukowsky disk, the torque does the work of the power computed), tip and root corrections lie between 0 and 1, the accepted inputs are those documented, and the bounding box contains the disk.", "quantifier": "every disk orientation, size, number of points, thrust curve and wind", "why_tests_cant": "all reals and sizes", "anchors": ["amr-wind/wind_energy/actuator/disk/disk_ops.cpp:compute_disk_points", "amr-wind/wind_energy/actuator/disk/uniform_ct_ops.H", "amr-wind/wind_energy/actuator/disk/Joukowsky_ops.H:ComputeForceOp"]}
{"id": "C76", "title": "Spreading an actuator force conserves it", "statement": "Every kernel that spreads actuator point forces to cells is non-negative and integrates to one over space, so the force the fluid feels is the force of the actuator whatever the distribution of points, ring spacing, or decomposition of the mesh.", "quantifier": "every kernel width, ring, sector, orientation and decomposition", "why_tests_cant": "integrals over all space", "anchors": ["amr-wind/wind_energy/actuator/disk/ActSrcDiskOp.H:ActSrcOp", "amr-wind/wind_energy/actuator/disk/disk_spreading.H", "amr-wind/wind_energy/actuator/turbine/ActSrcDiskOp_Turbine.H:ActSrcOp", "amr-wind/wind_energy/actuator/actuator_utils.H:gaussian3d"]}
{"id": "C77", "title": "A wing actuator's forces are those of its airfoil at its sections", "statement": "The points of a wing divide its span evenly, their widths integrate along the span and sum to its length; after every history of steps the points are where the prescribed motion takes them and move with its velocity; the force at a point is lift and drag of the airfoil coefficients at the angle of attack of the velocity relative to the section, with drag along and lift across it; the bounding box contains the wing and the kernel's range during the motion.", "quantifier": "every wing, orientation, number of points, motion, history of time steps, wind and airfoil", "why_tests_cant": "all reals and histories; tests use a few fixed wings", "anchors": ["amr-wind/wind_energy/actuator/wing/wing_ops.cpp", "amr-wind/wind_energy/actuator/wing/wing_ops.H", "amr-wind/wind_energy/actuator/wing/fixed_wing_ops.H", "amr-wind/wind_energy/actuator/aero/AirfoilTable.cpp"]}
{"id": "C78", "title": "Actuators see the flow at their points and act on every rank they touch", "statement": "However boxes are assigned to ranks, every rank owning a box that an actuator's bounding box meets on any level takes part in the actuator; every actuator has exactly one root rank, which takes part, root duties differ by at most one between ranks and are not shared while there are enough ranks; each point of an actuator receives the velocity and density interpolated at that point, whatever the distribution of particles; an actuator found by its label has this label.", "quantifier": "every mesh, distribution of boxes, list of actuators and distribution of particles", "why_tests_cant": "all distributions; tests use one rank", "anchors": ["amr-wind/wind_energy/actuator/actuator_utils.cpp:determine_influenced_procs", "amr-wind/wind_energy/actuator/actuator_utils.cpp:determine_root_proc", "amr-wind/wind_energy/actuator/ActuatorContainer.cpp:populate_field_buffers", "amr-wind/wind_energy/actuator/Actuator.cpp:update_velocities"]}
{"id": "C79", "title": "Derived quantities are the derivatives they are named after", "statement": "Gradient, divergence, strain rate, vorticity, Q-criterion, curvature and filter are applied to every cell of a level with the one-sided formula exactly next to boundaries that are not periodic, whatever the boxes and tiles; gradient, divergence and curvature are exact for quadratic fields; the strain rate is sqrt(2 S:S), the vorticity the curl, its magnitude the length of it, Q is (|Omega|^2-|S|^2)/2; filtering stays within the range of the seven values it combines and keeps linear fields; the Laplacian is the Laplacian; the non-linear stress is symmetric and its divergence does not depend on the boxes.", "quantifier": "all domains, periodicities, box and tile decompositions, cells, quadratic fields, velocity gradients and stencils", "why_tests_cant": "the 27 boundary stencils overwrite each other in an order that depends on tile and domain; a unit test sees one box and one flow, most of them away from edges and corners", "anchors": ["amr-wind/fvm/fvm_utils.H:apply", "amr-wind/fvm/stencils.H", "amr-wind/fvm/gradient.H", "amr-wind/fvm/curvature.H", "amr-wind/fvm/qcriterion.H", "amr-wind/fvm/nonLinearSum.H:NonLinearSum", "amr-wind/turbulence/LES/Kosovic.cpp:update_turbulent_viscosity"]}
{"id": "C80", "title": "Mesoscale forcing drives the averaged profile to the mesoscale profile", "statement": "The assimilation terms drive horizontally averaged wind and temperature to the prescribed mesoscale profile: the smoothed error profile is the least-squares cubic polynomial in height for the given weights (a cubic error is reproduced exactly and the polynomial is unique), weights are interpolated from the user's table, below the transition height the indirect term is used and above it the blended or constant one, the documented relaxation acts with the gain, and the options are accepted and act as documented.", "quantifier": "all height tables, weight profiles, error profiles, transition heights, thicknesses and gains", "why_tests_cant": "least squares over every profile and weighting; tests check one run", "anchors": ["amr-wind/wind_energy/ABLMesoscaleForcing.cpp", "amr-wind/equation_systems/icns/source_terms/ABLMesoForcingMom.cpp:mean_velocity_heights", "amr-wind/equation_systems/temperature/source_terms/ABLMesoForcingTemp.cpp:mean_temperature_heights"]}
{"id": "C81", "title": "Momentum sources keep their physical balances", "statement": "Coriolis forcing does no work and is 2 rho Omega x u in the rotated frame of the latitude; geostrophic forcing balances it exactly for the geostrophic wind, hurricane forcing for the gradient wind; pressure gradient (ABL) forcing brings the mean velocity to the target within the step, ramps without jump, and a recorded history replays to the same forces; time tables are followed exactly at their rows; body forces are accepted in the documented kinds only, and oscillate as documented.", "quantifier": "all latitudes, directions, velocities, time tables, histories and steps", "why_tests_cant": "identities for every angle and vector; tests check one latitude", "anchors": ["amr-wind/equation_systems/icns/source_terms/CoriolisForcing.cpp", "amr-wind/equation_systems/icns/source_terms/GeostrophicForcing.cpp", "amr-wind/equation_systems/icns/source_terms/ABLForcing.cpp", "amr-wind/equation_systems/icns/source_terms/HurricaneForcing.cpp", "amr-wind/equation_systems/icns/source_terms/BodyForce.cpp", "amr-wind/equation_systems/temperature/source_terms/HurricaneTempForcing.cpp"]}
{"id": "C82", "title": "Buoyancy and damping act in the right direction and only where asked", "statement": "Warm air rises and cold air sinks in proportion to the temperature difference, the result does not depend on a constant added to temperature and reference alike; the mean buoyancy removes exactly the horizontal mean; density buoyancy vanishes at the reference density; gravity is the given vector; Rayleigh damping is zero below the damping layer, continuous, monotone and relaxes to the reference in the given time; nudging and met masts weigh by distance and relax with the given time scale.", "quantifier": "all temperatures, densities, heights, layers, time scales and mast tables", "why_tests_cant": "signs and continuity for every profile; tests look at one column", "anchors": ["amr-wind/equation_systems/icns/source_terms/BoussinesqBuoyancy.cpp", "amr-wind/equation_systems/icns/source_terms/ABLMeanBoussinesq.cpp", "amr-wind/equation_systems/icns/source_terms/DensityBuoyancy.cpp", "amr-wind/equation_systems/icns/source_terms/GravityForcing.cpp", "amr-wind/equation_systems/icns/source_terms/RayleighDamping.cpp", "amr-wind/equation_systems/icns/source_terms/MetMastForcing.cpp", "amr-wind/equation_systems/icns/source_terms/VelocityFreeAtmosphereForcing.cpp"]}
{"id": "C83", "title": "Terrain and water surfaces act on the flow as drag, sponges relax only where asked", "statement": "A cell is blanked exactly when its centre lies below the terrain, a drag cell is the free cell just above; blanked cells are brought to rest, drag cells feel a stress of the law of the wall opposing the flow, and form drag of waves opposes the motion relative to the waves; cells away from terrain and sponges feel no force. Sponges damp only within their distance, towards the reference profile. The temperature next to terrain relaxes to the soil or surface temperature with the constants of the stability functions given by the user.", "quantifier": "all terrain heights, roughness lengths, cells, velocities, temperatures, wave states and sponge distances", "why_tests_cant": "signs and definedness for every terrain, roughness and wave state; tests use one flat hill with small roughness", "anchors": ["amr-wind/physics/TerrainDrag.cpp", "amr-wind/equation_systems/icns/source_terms/DragForcing.cpp", "amr-wind/equation_systems/temperature/source_terms/DragTempForcing.cpp", "amr-wind/equation_systems/temperature/source_terms/TemperatureFreeAtmosphereForcing.cpp"]}
{"id": "C84", "title": "Forests take energy out of the flow with the total leaf area asked for", "statement": "Every forest of the input file is read; its drag acts in every cell inside its disk and below its height and nowhere else; the drag is the drag coefficient times the leaf area density times the speed times the velocity, so it opposes the flow; the density integrated over the height is the leaf area index given, uniform for kind one and following the profile with its peak at the given height for kind two.", "quantifier": "all forests, heights, radii, drag coefficients, leaf area indices, cells and velocities; every text file", "why_tests_cant": "the profile is normalised by a quadrature whose result must be right for every peak position; a wrong index or a header line silently drops trees", "anchors": ["amr-wind/physics/ForestDrag.H:area_fraction,lm", "amr-wind/physics/ForestDrag.cpp:initialize_fields,read_forest", "amr-wind/utilities/integrals.H:trapz", "amr-wind/equation_systems/icns/source_terms/ForestForcing.cpp"]}
{"id": "C85", "title": "Subgrid models take energy from the resolved flow and do not depend on the axes", "statement": "The filter width is the cube root of the cell volume. The Smagorinsky viscosity is density times the squared product of constant and width times the norm of the strain rate, unchanged by a rotation of the axes. The one-equation model has a length no larger than the cell and, in stable air, no larger than 0.76 sqrt(k)/N; production equals viscosity times the squared strain rate, dissipation grows with k to the power three halves; the energy after a step is never negative. The anisotropic minimum-dissipation model gives zero in shear and in laminar stratified layers, is never negative and is bounded by the largest scaled velocity gradient. The nonlinear model gives the stress of the law of the wall and fades with height. Effective diffusivities are the sum of molecular and turbulent ones.", "quantifier": "all cell sizes, velocity and temperature gradients, energies, densities, coefficients and gravity directions", "why_tests_cant": "invariance under rotation, positivity and boundedness for every gradient cannot be sampled; tests use single shear flows with unit density", "anchors": ["amr-wind/turbulence/LES/Smagorinsky.cpp", "amr-wind/turbulence/LES/OneEqKsgs.cpp", "amr-wind/turbulence/LES/AMD.H", "amr-wind/turbulence/LES/AMD.cpp", "amr-wind/turbulence/LES/AMDNoTherm.H", "amr-wind/turbulence/LES/Kosovic.cpp", "amr-wind/turbulence/TurbModelBase.H", "amr-wind/equation_systems/tke/source_terms/KsgsM84Src.cpp", "amr-wind/equation_systems/tke/tke_ops.H"]}
{"id": "C86", "title": "The one-equation RANS model keeps lengths, viscosity and diffusivity in their physical range", "statement": "For every cell with positive energy the model yields a positive length, at most that of the surface layer and of the buoyancy scale in stable air and a bounded multiple of the former in unstable air, a positive viscosity (zero in terrain), a shear production equal to viscosity times squared strain rate and a buoyancy production that takes energy in stable air and gives it in unstable air, at the rate of the work of the modelled heat flux. The stability functions stay positive for every Richardson number. The source is production minus dissipation; the first layer above ground follows the law of the wall; above the sponge height the energy follows the given profile; terrain cells lose their energy. Every coefficient a user sets has an effect.", "quantifier": "all energies, stratifications, heights, previous lengths, coefficients, terrain flags, sponge heights, profiles and time steps", "why_tests_cant": "the clipped stability functions must stay positive for every Richardson number and history of lengths; tests compare single cells", "anchors": ["amr-wind/turbulence/RANS/KLAxell.cpp:update_turbulent_viscosity,update_alphaeff,update_mueff", "amr-wind/turbulence/RANS/KLAxell.H", "amr-wind/equation_systems/tke/source_terms/KransAxell.cpp"]}
{"id": "C87", "title": "The k-omega SST model and its IDDES variant blend within bounds and have the right equilibria", "statement": "The blending functions lie between zero and one, so each coefficient lies between its inner and outer value. The eddy viscosity is positive, at most rho k / omega, and limits the shear stress to a1 rho k in the boundary layer. Production is the work of the eddy viscosity, at most ten times the dissipation. For every kind of diffusion one step moves energy by production minus dissipation and omega has its equilibrium where production and destruction balance; ambient values are sustained; energy and omega stay positive. The hybrid length is an average of the lengths of RANS and LES, equal to that of RANS near walls.", "quantifier": "all densities, energies, dissipation rates, strain rates, vorticities, wall distances, coefficients, cell sizes, time steps and the three kinds of diffusion", "why_tests_cant": "bounds and fixed points for every state and time step; tests run a channel for a few steps and compare with stored values", "anchors": ["amr-wind/turbulence/RANS/KOmegaSST.cpp:update_turbulent_viscosity,update_scalar_diff", "amr-wind/turbulence/RANS/KOmegaSSTIDDES.cpp:update_turbulent_viscosity", "amr-wind/equation_systems/tke/source_terms/KwSSTSrc.cpp", "amr-wind/equation_systems/sdr/source_terms/SDRSrc.cpp", "amr-wind/equation_systems/sdr/sdr_ops.H", "amr-wind/equation_systems/tke/tke_ops.H", "amr-wind/incflo_advance.cpp"]}
{"id": "C88", "title": "The reference state is hydrostatic and the fluid properties follow the inputs", "statement": "The equation of state is the ideal gas law for moist air at potential temperature, and the slope it reports is its derivative. The anelastic reference column obeys the equation of state in each cell and hydrostatic balance between cells to within the tolerance of the solver; density and pressure fall strictly with height; a column that does not converge is refused. The reference pressure holds at each node the pressure of that height. Viscosity and diffusivity of two phases are averages with the volume fraction as weight, diffusivities are viscosity over Prandtl or Schmidt number, thermal expansion is the coefficient given or one over the reference temperature, and the newer input section has precedence over the older ones.", "quantifier": "all densities, temperatures, humidities, columns of any number of cells, volume fractions, level sets and combinations of entries", "why_tests_cant": "balance between every two cells of a column of any height rests on the convexity of the equation of state and a Newton iteration; tests check one column against stored numbers", "anchors": ["amr-wind/eos_models/EOSModel.H:GammaLaw", "amr-wind/wind_energy/ABLAnelastic.cpp:initialize_isentropic_hse", "amr-wind/utilities/MultiLevelVector.cpp", "amr-wind/transport_models/ConstTransport.H", "amr-wind/transport_models/TwoPhaseTransport.H"]}
{"id": "C89", "title": "One step of a transport equation conserves, keeps uniform states and treats diffusion as chosen", "statement": "A step changes density times value by the time step times advection, source and the mean of old and new diffusion with the weight of the chosen kind (explicit, Crank-Nicolson, implicit), in the predictor, in the corrector and with a mesh map, whichever operator solves the velocity. The result is unique; totals change only by sources; a uniform scalar stays uniform; implicit and Crank-Nicolson diffusion never raise the energy, implicit diffusion makes no new extremes, for every time step; masked cells keep their values. Viscosity on faces lies between those of the two cells; walls let no flow through; every kind of boundary is treated or refused.", "quantifier": "all densities, maps, masks, fields, sources, rates of advection, symmetric diffusion coefficients, numbers of cells and time steps", "why_tests_cant": "stability and boundedness for every time step and uniqueness for every coefficient field need algebra over all fields; tests take single steps of constant fields with unit density", "anchors": ["amr-wind/equation_systems/CompRHSOps.H", "amr-wind/equation_systems/DiffusionOps.cpp", "amr-wind/equation_systems/DiffusionOps.H", "amr-wind/equation_systems/icns/icns_diffusion.H", "amr-wind/diffusion/incflo_diffusion.cpp", "amr-wind/incflo_advance.cpp:ApplyPredictor,ApplyCorrector"]}
{"id": "C90", "title": "Wall functions of channels give the stress of the law of the wall, against the flow", "statement": "The friction velocity returned for a wind speed satisfies the law of the wall to within the tolerance, or the run stops. The stress is along the velocity and has the size of the squared friction velocity; the Schumann model keeps its mean; moving waves add a stress on the windward side, in the direction of the wind relative to the wave. The gradient put at a wall times viscosity is density times the stress, against the flow at both walls; a constant stress balances the body force. The result depends neither on the position of the domain nor on its division into boxes.", "quantifier": "all wind speeds, mean friction velocities, constants, wave parameters, times, positions, grid sizes and divisions into boxes", "why_tests_cant": "convergence and error of a Newton iteration for every wind speed, all wave phases; tests take one profile", "anchors": ["amr-wind/boundary_conditions/wall_models/LogLaw.H", "amr-wind/boundary_conditions/wall_models/MOSD.H", "amr-wind/boundary_conditions/wall_models/ShearStressSimple.H", "amr-wind/boundary_conditions/wall_models/WallFunction.cpp"]}
{"id": "C91", "title": "The initial state of an atmospheric run is the one asked for", "statement": "Temperature is interpolated in the table of heights and continued with its end values, plus random perturbations below the cutoff height only. Wind is the given constant, table, profile (above terrain if asked) or file, each cell of the coarse level from its own place in the file for every division into boxes; the linear profile has the bottom and top velocity at the ends of the domain. Velocity perturbations have the amplitude asked for at the reference height and nowhere more, are periodic, divergence free and do not change the mean. Density is the one given; turbulent energy is positive and has the profile asked for; every rank takes part in filling finer levels.", "quantifier": "all tables, heights, domains, amplitudes, numbers of periods and cells, boxes, ranks and switches", "why_tests_cant": "sums over any number of cells, all tables and box divisions; tests check one domain starting at zero with heights inside the table", "anchors": ["amr-wind/wind_energy/ABLFieldInit.cpp", "amr-wind/wind_energy/ABLFieldInitFile.cpp", "amr-wind/wind_energy/ABL.cpp:initialize_fields"]}
{"id": "C92", "title": "The modulated power law inflow has the bulk velocity, direction and turning asked for", "statement": "The velocity is horizontal, along the given wind direction (where the wind comes from, clockwise from north), follows the power law up to its maximum and equals the wind speed at the reference height; together with the layer above, its mean over the height of the domain is the bulk velocity. Between the start and the stop time the wind turns at the given rate, also over a restart. The temperature is that of the table plus random perturbations below the cutoff.", "quantifier": "all speeds, directions, rates, sequences of time steps, restarts, exponents, layers, heights and tables", "why_tests_cant": "integral of the profile over the height for all parameters, all time step sequences; there is no unit test of the class", "anchors": ["amr-wind/wind_energy/ABLModulatedPowerLaw.cpp", "amr-wind/wind_energy/ABLFillMPL.cpp"]}
{"id": "C93", "title": "The statistics of the boundary layer hold what their names say", "statement": "The reported height of the boundary layer is the mean over the columns of the height where the vertical temperature gradient is strongest, for every distribution of the columns over ranks and on processors as on accelerators. The convective velocity is the cube root of g Q zi / theta for an upward heat flux and zero otherwise. Rows are written at the steps the output interval divides. Each variable of a row holds the plane mean, or the mean product of fluctuations, that its name says; every declared variable is written; the residual term closes the energy budget; profile files start with their head.", "quantifier": "all temperature fields, domains, distributions, heat fluxes, steps, intervals, planes and fields", "why_tests_cant": "all fields and distributions; there is no test of the height, of the energy budget or of the file with the default interval", "anchors": ["amr-wind/wind_energy/ABLStats.cpp:compute_zi", "amr-wind/wind_energy/ABLStats.cpp:write_netcdf", "amr-wind/wind_energy/ABLStats.cpp:post_advance_work", "amr-wind/utilities/FieldPlaneAveraging.cpp:output_line_average_ascii"]}
{"id": "C94", "title": "Recorded inflow planes drive another run with the recorded inflow", "statement": "Planes are recorded at the steps the interval divides, from the start time on. A run reading them takes at every target time within the records the linear interpolation in time between the two records around it, in every cell of the plane its own value, for any sequence of reads: at the time of a record it is the record. The recorded value is the mean of the cells on both sides of the boundary face. A value interpolated at another time than the one asked for is refused.", "quantifier": "all record times, intervals, sequences of target times, planes, divisions into boxes, numbers of components and fields", "why_tests_cant": "all sequences of reads and record times, all box divisions; tests compare two time steps of one level on one side", "anchors": ["amr-wind/wind_energy/ABLBoundaryPlane.cpp", "amr-wind/wind_energy/ABLFillInflow.cpp"]}
{"id": "C95", "title": "Overset masks solve for owned points, and received ones only at the free surface", "statement": "With overset grids the solver takes as unknowns exactly the points it owns, and in a two-phase run also received points that touch an owned point, have no hole among their neighbours and lie at the free surface. Holes are never solved for. After the projection of the face velocities the mask is the plain one again.", "quantifier": "all blankings with values 1, 0, -1, all volume fractions from 0 to 1, all tolerances, all points", "why_tests_cant": "all blankings and volume fractions; tests use one hand-made blanking", "anchors": ["amr-wind/overset/overset_ops_routines.cpp", "amr-wind/equation_systems/vof/volume_fractions.H", "amr-wind/equation_systems/icns/icns_advection.cpp"]}
{"id": "C96", "title": "Sharpening the received free surface is confined and conserves liquid, mass and momentum", "statement": "The free surface received from the other solver is sharpened only inside the received region: no flux crosses its edge, the cells solved here keep their values, and liquid, mass, momentum and pressure gradient are conserved on every level. The density stays the mixture of the two fluids; a surface at its target is left alone; no direction is favoured; the number of iterations is the first at which the measured error is within the tolerance, or the number allowed.", "quantifier": "all blankings, fields, targets, mesh sizes, fluxes, numbers of iterations, intervals and tolerances", "why_tests_cant": "all fields and blankings and any number of iterations; tests compute single fluxes on a few cells", "anchors": ["amr-wind/overset/OversetOps.cpp", "amr-wind/overset/overset_ops_routines.cpp", "amr-wind/overset/overset_ops_K.H"]}
{"id": "C97", "title": "Overset coupling hands over the right patches, fields and pressure gradient", "statement": "On every rank the local and global numbers of the grid boxes told to the connectivity library are inverse to one another; every component of the exchanged fields has its own place; connectivity can be updated, and the mesh changed, any number of times. After a step the received cells have the pressure gradient from before the step, and the velocity that goes with it; the other cells are unchanged.", "quantifier": "all box lists and assignments to ranks, all lists of fields, all sequences of calls, all fields", "why_tests_cant": "all distributions of boxes and all sequences of calls; tests use one rank and one update", "anchors": ["amr-wind/overset/TiogaInterface.cpp", "amr-wind/overset/OversetOps.cpp"]}
{"id": "C98", "title": "Advection conserves the transported quantity, also on refined meshes", "statement": "The advection terms only move the transported quantity between cells: its total over a mesh with any number of refinement levels changes by exactly what passes the boundary of the domain, and not at all in a periodic domain. A uniform quantity is changed only by the divergence of the face velocities.", "quantifier": "all fluxes, all meshes of nested levels with any ratios, boxes and ranks", "why_tests_cant": "all meshes and all flow fields; tests advect a few fields on a small number of meshes", "anchors": ["amr-wind/equation_systems/AdvOp_Godunov.H", "amr-wind/equation_systems/AdvOp_MOL.H", "amr-wind/equation_systems/icns/icns_advection.H", "amr-wind/convection/incflo_mol_fluxes.cpp"]}
{"id": "C99", "title": "Face values are upwinded, bounded, centred in time and do not depend on the tiling", "statement": "The input selects one of the documented advection schemes or is refused; momentum and scalars use the same one. Values at faces stand for the middle of the step. With the method of lines the value carried through a face comes from upwind, lies between the values of the two cells, equals the given value at a boundary, and does not depend on the tile that computes it or on the boundary conditions of other components. Near a free surface momentum is carried with the mass, so a uniform velocity stays uniform across any jump of density.", "quantifier": "all inputs, states, face velocities, boundary types, tiles and components; all densities", "why_tests_cant": "all states and all tilings; tests use one box", "anchors": ["amr-wind/convection/incflo_mol_fluxes.cpp", "amr-wind/equation_systems/AdvOp_Godunov.H", "amr-wind/equation_systems/vof/vof_momentum_flux.H", "amr-wind/physics/multiphase/MultiPhase.cpp", "amr-wind/utilities/bc_ops.cpp"]}
{"id": "C100", "title": "The projection of the face velocities removes a gradient over the density and leaves the right divergence zero", "statement": "Given an exact solution of the equation it sets up, the projection of the face velocities subtracts from the physical velocity at every face the physical gradient of a potential over the density there, and makes the divergence of the velocity vanish: of the contravariant velocity on a mapped mesh, of the velocity times the reference density in an anelastic run. The equation is elliptic. The potential is fixed at pressure outflows only.", "quantifier": "all velocities, densities, reference densities, mesh maps, combinations of options, steps", "why_tests_cant": "all fields and all combinations of options; tests look at a few runs with one option each", "anchors": ["amr-wind/equation_systems/icns/icns_advection.cpp"]}
{"id": "C101", "title": "The exact solutions of the verification cases solve the equations that the code solves", "statement": "The velocity, pressure gradient and source of the convecting Taylor vortex, the Ekman spiral, the Burggraf cavity and the laminar channel satisfy mass and momentum conservation with the given viscosity at every point and time, and the boundary conditions of the case, so that the reported error tends to zero if and only if the solver is right.", "quantifier": "all points, times, viscosities, mean velocities, densities, channel heights, rotation periods and forces", "why_tests_cant": "every point of space and time; a test evaluates the formula or a coarse run with a tolerance", "anchors": ["amr-wind/physics/ConvectingTaylorVortex.cpp", "amr-wind/physics/EkmanSpiral.cpp", "amr-wind/physics/BurggrafFlow.cpp", "amr-wind/physics/ChannelFlow.cpp", "amr-wind/physics/ChannelFlow.H"]}
{"id": "C102", "title": "The error that verification cases report is the root mean square deviation over the domain", "statement": "Each cell counts once with its volume, whatever the refinement and the distribution over ranks; covered and blanked cells do not count. The reported error lies between the smallest and the largest deviation and is zero just if the field is exact in every cell that counts.", "quantifier": "all nested meshes with any levels, ratios, boxes and ranks; all fields; all blanking", "why_tests_cant": "all meshes and fields; tests use one or two levels", "anchors": ["amr-wind/physics/ConvectingTaylorVortex.cpp", "amr-wind/physics/EkmanSpiral.cpp", "amr-wind/physics/BurggrafFlow.cpp", "amr-wind/physics/ChannelFlow.cpp"]}
{"id": "C103", "title": "The prescribed velocities of the benchmark cases conserve mass and do what the benchmark says", "statement": "The velocities that the cases prescribe or start from (Taylor-Green, vortex dipole, turbulent channel perturbation, vortex rings, vortex patch, Zalesak's disk, breaking wave) are solenoidal, periodic or compatible with the domain; particles of the vortex patch return after a period and Zalesak's disk turns rigidly; the turbulent channel profile starts at the wall with the friction velocity that is asked for; vortex rings have the vorticity that is asked for.", "quantifier": "all points, times, domain sizes, periods, amplitudes, cell sizes, circulations and radii", "why_tests_cant": "statements about every point and about trajectories of a differential equation; a test evaluates the formula at a few cells", "anchors": ["amr-wind/physics/TaylorGreenVortex.cpp", "amr-wind/physics/VortexDipole.cpp", "amr-wind/physics/ChannelFlow.cpp", "amr-wind/physics/VortexRing.cpp", "amr-wind/physics/multiphase/VortexPatch.cpp", "amr-wind/physics/multiphase/ZalesakDisk.cpp", "amr-wind/physics/multiphase/BreakingWaves.cpp"]}
{"id": "C104", "title": "The scalar advection case starts from, and compares with, cell averages of the travelling shape", "statement": "The scalar of each cell is the average over the cell of the pulse, and the solution that the error is measured against is the average of the pulse carried by the constant velocity; so an exact finite volume scheme has no error.", "quantifier": "all cell sizes, positions, widths, amplitudes, velocities and times", "why_tests_cant": "every cell size and position relative to the pulse", "anchors": ["amr-wind/physics/ScalarAdvection.cpp", "amr-wind/physics/ScalarAdvection.H"]}
{"id": "C105", "title": "The initial states with two fluids put the fluids where the input says", "statement": "The level set of the slotted disk, sphere, water column and tank is positive exactly where the liquid is meant to be; the pressure of the tank at rest balances the weight; the momentum of the drop is that of its liquid; the density of the Rayleigh-Taylor case lies between the two densities, heavy above light.", "quantifier": "all points, radii, slots, widths, locations, densities and gravity", "why_tests_cant": "every point and every choice of the geometry", "anchors": ["amr-wind/physics/multiphase/ZalesakDisk.cpp", "amr-wind/physics/multiphase/DamBreak.cpp", "amr-wind/physics/multiphase/SloshingTank.cpp", "amr-wind/physics/multiphase/RainDrop.cpp", "amr-wind/physics/RayleighTaylorFieldInit.cpp", "amr-wind/physics/BoussinesqBubbleFieldInit.cpp"]}
{"id": "C106", "title": "Synthetic turbulence: the force in every cell is that of the turbulence passing the plane at that time", "statement": "After any sequence of steps and mesh changes the force in a cell is determined by the time of the last step, the file and the input: the perturbation, linear between the points of the file and periodic, turned from the frame of the wind, weighted across the plane with weights of sum one; nothing outside the box and after the duration; no read outside the file. A stream passing the plane gains the gust.", "quantifier": "all files, grids, wind directions, offsets, durations, times and histories of steps and regrids", "why_tests_cant": "all histories of times (restart, repeated steps, wrap-around of the box) and all positions", "anchors": ["amr-wind/physics/SyntheticTurbulence.cpp", "amr-wind/physics/SyntheticTurbulence.H", "amr-wind/equation_systems/icns/source_terms/SynthTurbForcing.cpp"]}
{"id": "C107", "title": "Nodal projection: the velocity loses its divergence by the change of the pressure gradient and nothing else", "statement": "In all modes (usual, incremental, small step, mapped mesh, anelastic, constant or variable density) the velocity changes by the step over the density times the change of the pressure gradient; with an exact solver the flux (reference density, mapping) has no divergence with the given inflow; projecting again changes nothing; the form for small steps agrees with the usual one; each kind of boundary gets its condition for the pressure.", "quantifier": "all grids, densities, mesh mappings, inflows, old and new velocities, pressures, modes and step sizes", "why_tests_cant": "the relation must hold in every cell for all combinations of the five modes; tests run a few cases with loose tolerances", "anchors": ["amr-wind/projection/incflo_apply_nodal_projection.cpp", "amr-wind/projection/nodal_projection_ops.H"]}
{"id": "C108", "title": "Immersed bodies: inside every body the fluid has the velocity the body prescribes, outside it is not touched", "statement": "The level set is negative exactly in the cells with centre in some body, independent of the order of the bodies, and is the distance to the surface; all nodes of solid cells are masked in the pressure equation; in a solid cell the velocity is that of its body before and after the projection; cells outside keep theirs; normals are unit vectors in the layer inside the surface. This holds after regrids too.", "quantifier": "all lists of spheres, cylinders and boxes, positions, meshes, velocities, pressures and changes of the mesh", "why_tests_cant": "all positions relative to the mesh and all combinations of bodies", "anchors": ["amr-wind/immersed_boundary/IB.cpp", "amr-wind/immersed_boundary/bluff_body/bluff_body_ops.cpp", "amr-wind/immersed_boundary/bluff_body/box_ops.H", "amr-wind/immersed_boundary/bluff_body/sphere_ops.H", "amr-wind/immersed_boundary/bluff_body/cylinder_ops.H"]}
{"id": "C109", "title": "Refinement by field values: a cell is tagged exactly if its quantity exceeds the value given for its level", "statement": "For refinement by a field, its differences, gradient, curvature, vorticity, Q-criterion and overset state: a cell is tagged exactly if the quantity exceeds the value given for its level; levels without a value are not refined; the quantities are those of the flow (exact for polynomials of the order of the scheme) on every cell size; no criterion takes back tags of another.", "quantifier": "all fields, cell sizes, lists of values, levels and combinations of criteria", "why_tests_cant": "all fields and meshes, in particular cells with unequal sides and levels past the list", "anchors": ["amr-wind/utilities/tagging/FieldRefinement.cpp", "amr-wind/utilities/tagging/CurvatureRefinement.cpp", "amr-wind/utilities/tagging/QCriterionRefinement.cpp", "amr-wind/utilities/tagging/VorticityMagRefinement.cpp", "amr-wind/utilities/tagging/GradientMagRefinement.cpp", "amr-wind/utilities/tagging/OversetRefinement.cpp", "amr-wind/utilities/tagging/RefinementCriteria.cpp"]}
{"id": "C110", "title": "A lidar samples the line that its tables prescribe at the time of the sample", "statement": "The beam of a lidar starts at the origin given, has the length given and points in the direction of the azimuth and elevation that the tables give for the time of the sample; tables repeat if asked; a table with one entry gives a beam at rest; the points divide the beam evenly and lie in the domain.", "quantifier": "all tables, times, steps, origins and lengths", "why_tests_cant": "all times and tables, in particular tables that do not begin at zero and angles across the full turn", "anchors": ["amr-wind/utilities/sampling/LidarSampler.cpp", "amr-wind/utilities/sampling/LineSampler.cpp"]}
{"id": "C111", "title": "The spinner lidar takes its beams at the sampling rate, with the given length and the attitude of the hub", "statement": "Beams follow each other by one sampling interval, none twice and none left out, and the scanner keeps up with the flow; each beam has the given length, for all motions of the prisms; it starts at the hub on its way from the last to the present position and turns with the hub on the shortest way between the attitudes received.", "quantifier": "all runs (numbers of steps), step sizes, sampling rates, prisms, hub motions", "why_tests_cant": "all histories of steps; drifts of the scanner's clock show after many steps only", "anchors": ["amr-wind/utilities/sampling/DTUSpinnerSampler.cpp", "amr-wind/utilities/sampling/DTUSpinnerSampler.H", "amr-wind/utilities/sampling/SamplingUtils.cpp"]}
{"id": "C112", "title": "The radar sweeps as prescribed and reports the velocity along its beams", "statement": "The radar sweeps between minus and plus half its angle at its speed, rests for the reset time, and takes the elevations in turn; its rays are unit vectors in the cone, the middle one along the axis at the sweep and elevation angle; the value reported for a place on a beam is the mean over the rays, with the weights of the rule, of the velocity component along each ray.", "quantifier": "all times, sweeps, elevations, cones per step, flows", "why_tests_cant": "all times and flows; several cones in a step, and long runs", "anchors": ["amr-wind/utilities/sampling/RadarSampler.cpp", "amr-wind/utilities/sampling/RadarSampler.H", "amr-wind/utilities/sampling/Sampling.cpp", "amr-wind/utilities/sampling/SamplingUtils.cpp"]}
{"id": "C113", "title": "A turbine of an external solver acts on the flow with the forces of that solver, at its points", "statement": "Every rank gets, for every force point, the force of the turbine solver reversed, its position and its axes; the points are shared out to hub, blades and tower without gap or overlap; action equals reaction in a flow with the density of the turbine; the nacelle slows the flow with the drag of its coefficient and area; the frame of the rotor is orthonormal; the box that decides which ranks take part contains the rotor; the blade correction uses the velocities of the blade's own points at this time.", "quantifier": "all numbers of blades and points, forces, positions, attitudes, velocities, densities, input widths", "why_tests_cant": "needs an external solver, several ranks and all numbers of points; the tests use a fixed turbine", "anchors": ["amr-wind/wind_energy/actuator/turbine/external/turbine_external_utils.H", "amr-wind/wind_energy/actuator/turbine/external/turbine_external_ops.H", "amr-wind/wind_energy/actuator/turbine/turbine_utils.cpp", "amr-wind/wind_energy/actuator/turbine/fast/turbine_fast_ops.H"]}
{"id": "C114", "title": "The solver of a turbine advances with the flow, and a coupled run can be continued", "statement": "In every step of the flow the turbine solver makes the number of its own steps that fill it, with the velocities of that step, so the clocks agree for ever; checkpoints of the solver are written with those of the flow; a run continued from a checkpoint, or by replaying the recorded velocities, calls the solver as the uninterrupted run would; a turbine whose duration is shorter than that of the flow is refused.", "quantifier": "all step sizes, numbers of steps, velocities, checkpoint intervals, restart points, files found", "why_tests_cant": "all histories of runs and restarts; drifts show after many steps only", "anchors": ["amr-wind/wind_energy/actuator/turbine/external/ExtTurbIface.H", "amr-wind/wind_energy/actuator/turbine/fast/FastIface.cpp", "amr-wind/wind_energy/actuator/turbine/fast/turbine_fast_ops.H", "amr-wind/wind_energy/actuator/Actuator.cpp"]}
{"id": "C115", "title": "Waves enter through inflow and wave boundaries", "statement": "Just outside every inflow or wave-generation face the volume fraction is that of the requested wave, the velocity is that of the wave in the water and the inflow given by the user in the air, the density is that of the mixture, and nothing else changes; the advecting velocity on and beyond these faces is that of the same wave; every value is that of the time it is used for; volume fraction and density get compatible boundary types.", "quantifier": "all domains, periodic directions, boundary types, boxes, target waves, terrain, times and step sizes", "why_tests_cant": "all boxes and indices around the domain and the order of updates inside a step; tests fill one field at one time", "anchors": ["amr-wind/ocean_waves/boundary_ops/OceanWavesBoundary.cpp", "amr-wind/ocean_waves/boundary_ops/OceanWavesFillInflow.cpp", "amr-wind/ocean_waves/OceanWaves.cpp", "amr-wind/equation_systems/vof/vof_bciface.H", "amr-wind/utilities/index_operations.H"]}
{"id": "C116", "title": "Recorded waves are interpolated in time", "statement": "The target of a recorded sea is at every update the linear interpolation in time between the two records around the time, however many updates came before; the record of the start time is where the run starts, whatever record that is; past the end the file is played again; a restart gives the targets of the run that was not interrupted; all ranks use the same records.", "quantifier": "all records, start records, time steps, sequences of updates, restarts, file lengths and distributions over ranks", "why_tests_cant": "the state left by every earlier update matters; the unit tests use start time zero and no second rank", "anchors": ["amr-wind/ocean_waves/relaxation_zones/waves2amr_ops.H", "amr-wind/ocean_waves/relaxation_zones/W2AWaves.H", "amr-wind/ocean_waves/OceanWaves.cpp"]}
{"id": "C117", "title": "A dry run writes the initial state and nothing else, a run starts as documented and no file is written twice", "statement": "With the dry run option a run writes exactly one plot file, under a name of its own, and makes no step, projection, iteration or checkpoint, whatever else the input says; a new run projects, makes the iterations asked for, writes the initial state if files are asked for, and a restarted run goes on with its next step at once; the initial iterations leave velocity, density and scalars as they were and add the reference pressure once; no run writes two plot files or checkpoints of the same index.", "quantifier": "all input tables, time options, restarts, flows (as CFL numbers), lengths of run and ways to end, all predictors", "why_tests_cant": "depends on the combination of every output option with the dry run and on the whole history of a run", "anchors": ["amr-wind/setup/init.cpp", "amr-wind/incflo.cpp", "amr-wind/incflo.H", "amr-wind/core/SimTime.cpp", "amr-wind/main.cpp"]}
{"id": "C118", "title": "A subvolume is the part of the mesh that was asked for", "statement": "A rectangular subvolume is accepted only if its first cell begins at the origin asked for, its cells have the size asked for and it has the number of cells asked for in each direction, all to the stated tolerance, and if one level covers all of it; a part of a level that is named exactly is always accepted and its cells are the ones written; the part stays the same through all regrids.", "quantifier": "all meshes (levels, cell sizes, coverage), origins, sizes, counts and histories of regrids", "why_tests_cant": "depends on the cell sizes of every level, on rounding of any origin and on every regrid of a run", "anchors": ["amr-wind/utilities/subvolume/RectangularSubvolume.cpp", "amr-wind/utilities/subvolume/Subvolume.cpp", "amr-wind/utilities/subvolume/SubvolumeBase.H"]}
{"id": "C119", "title": "The velocity given on an inflow boundary is the velocity through it", "statement": "Where a velocity is given on a side of the domain, the advecting velocity through each cell face of that side is the normal component given there; a side that lets fluid both in and out takes it where it points inwards and keeps the solver's where it points outwards; no other face changes and grids that share a face agree; the projection sees the given velocity, in all components, in the cells beside such a side, zero elsewhere outside the domain, and no flow through any side when it projects a change of velocity.", "quantifier": "all domains, grids, boundary types, given velocities (any function of place and component) and velocities of the solver", "why_tests_cant": "depends on the decomposition into grids, on the signs of arbitrary velocities and on every combination of boundary types", "anchors": ["amr-wind/core/FieldFillPatchOps.H", "amr-wind/core/FieldBCOps.H", "amr-wind/equation_systems/icns/icns_advection.cpp", "amr-wind/projection/incflo_apply_nodal_projection.cpp"]}
{"id": "C120", "title": "A controller coupled to a run and the run understand each other", "statement": "A message with the time, wind speed, wind direction and one yaw angle for each turbine gives the run that wind and each turbine its own angle, from the next step on; the wind then comes from the compass direction given with the speed given, and a turbine whose yaw is the wind direction faces the wind; a message sent holds the time, the wind, and the power and wind direction of each turbine in order, collected from the ranks that have them, with directions as a compass shows them and the power of momentum theory.", "quantifier": "all texts and sequences of messages, numbers of turbines, angles, speeds, distributions of turbines over ranks", "why_tests_cant": "depends on arbitrary texts from another program, on the order of messages between ranks and on every angle", "anchors": ["amr-wind/helics.cpp", "amr-wind/helics.H", "amr-wind/wind_energy/actuator/Actuator.cpp", "amr-wind/wind_energy/ABL.cpp", "amr-wind/wind_energy/ABLModulatedPowerLaw.cpp", "amr-wind/wind_energy/actuator/disk/uniform_ct_ops.H", "amr-wind/wind_energy/actuator/disk/Joukowsky_ops.H", "amr-wind/incflo_advance.cpp"]}
{"id": "C121", "title": "A turbine solved by Kynema and the flow exchange the right things at the right times", "statement": "Every node of a blade is one point of the flow and back: the velocity at the point reaches its node, load, position and velocity of the node come back to its point, and the force on the hub stays the flow's; in each step of the flow the velocities are passed once, the structure makes its number of steps under the loads found from them, and the flow then sees the structure as it is at the end, with one record in the output; orientations are rotations, the inertia of sections and hub is that of the bodies described, angles and speeds have the units said.", "quantifier": "all numbers of bodies and nodes, structures, velocities, numbers of substeps and of steps, quaternions, sections", "why_tests_cant": "index maps must hold for every list of bodies, the exchange for every history of steps, and matrices for every section", "anchors": ["amr-wind/wind_energy/actuator/turbine/kynema/kynema_types.H", "amr-wind/wind_energy/actuator/turbine/kynema/KynemaIface.cpp", "amr-wind/wind_energy/actuator/turbine/kynema/turbine_kynema_ops.H"]}
{"id": "C122", "title": "Iterating a time step repeats the same step with a better velocity", "statement": "However many fixed-point iterations a step makes, all of them start from the fields at the end of the previous step; the first advects with the velocity of the start, the later ones with the mean of it and the result so far, so that a converged step is the implicit midpoint rule; the number reported is the change of the velocity between two iterations and is zero only if nothing changed; initial pressure iterations leave velocity and scalars as they were; a step with prescribed velocity only carries the velocity along.", "quantifier": "all fields, operators (viscosity, sources, advection, solvers, projections), numbers of iterations, of scalars and of steps, diffusion types and masks", "why_tests_cant": "which state each operator is given and which states survive must hold for all operators and any number of iterations; a test sees one set of models", "anchors": ["amr-wind/incflo_advance.cpp", "amr-wind/incflo.cpp", "amr-wind/setup/init.cpp", "amr-wind/equation_systems/PDEBase.cpp", "amr-wind/utilities/console_io.cpp"]}
{"id": "C123", "title": "The benchmarks that carry a scalar compare it with the initial field carried along", "statement": "The scalar that the rotating-disk and vortex-patch benchmarks keep in the velocity field has the shape said (between 0 and 1, one in the core, zero outside), the exact solution that the error is taken against starts as the initial field, keeps its value on every path of the prescribed velocity and is the initial field again after each period, and the reported error is the root mean square difference over the cells that count.", "quantifier": "all centres, radii, periods, times, points, paths of the velocity, levels of refinement and masks", "why_tests_cant": "that an exact solution is carried along is a statement on all paths of a velocity field; a test compares a few cells", "anchors": ["amr-wind/physics/multiphase/ZalesakDiskScalarVel.cpp", "amr-wind/physics/multiphase/VortexPatchScalarVel.cpp"]}
{"id": "C124", "title": "Marked turbines, temperature perturbations, merged sources, free streams and hybrid rates", "statement": "The sources of a turbulence model are merged with those of the user, each once; a free stream initialises density, velocity, every transported scalar and the listed fields, each once with its own function, and stops exactly for a field that does not exist; the marking tracer is one where the turbine force exceeds the threshold and unchanged elsewhere, and marks overset fringe cells; temperature is perturbed every given number of steps in the cells of the box above the terrain from the level given on; the dissipation rate of a hybrid run gives back the eddy viscosity of the LES model.", "quantifier": "all names and lists of the inputs, repositories of fields, thresholds, forces, steps, intervals, boxes, terrain, random numbers and cells", "why_tests_cant": "the merging and selection must hold for every list and name, and whether a module ever acts depends on the kind of a field declared elsewhere", "anchors": ["amr-wind/turbulence/turb_utils.cpp", "amr-wind/physics/FreeStream.cpp", "amr-wind/physics/ActuatorSourceTagging.cpp", "amr-wind/equation_systems/temperature/source_terms/PerturbationForcing.cpp", "amr-wind/physics/HybridRANSLESABL.cpp"]}
{"id": "C125", "title": "Options of the linear solvers reach the solve they are given for", "statement": "Every option of a linear solve takes the value given for the field, else the value given for all diffusion solves, else its default (for the two projections: the value given with their prefix, else the default), and the solve runs with exactly those values; an invalid choice is refused.", "quantifier": "all inputs, fields, kinds of solves and options", "why_tests_cant": "the layering and the hand-over must hold for each of some thirty options with any subset of them given; a test tries one or two", "anchors": ["amr-wind/core/MLMGOptions.cpp:parse_options", "amr-wind/core/MLMGOptions.H:MLMGOptions", "amr-wind/equation_systems/DiffusionOps.cpp", "amr-wind/equation_systems/icns/icns_advection.cpp", "amr-wind/projection/incflo_apply_nodal_projection.cpp"]}
{"id": "C126", "title": "A wing uses the polars of its airfoil file", "statement": "The coefficients a wing uses at an angle of attack are those of its airfoil file: at the angle of a row those of the row, between rows between them, beyond the table those of its ends, for both kinds of files and however the numbers are put on lines; a file that lacks rows is refused.", "quantifier": "all files, tables and angles", "why_tests_cant": "every layout, length and fault of a file matters; tests read one good file of each kind", "anchors": ["amr-wind/wind_energy/actuator/aero/AirfoilTable.cpp:AirfoilTable::operator()", "amr-wind/wind_energy/actuator/aero/AirfoilTable.cpp:AirfoilLoader::load_airfoil", "amr-wind/wind_energy/actuator/aero/AirfoilTableI.H:load_text_file", "amr-wind/wind_energy/actuator/aero/AirfoilTableI.H:load_openfast_airfoil"]}
{"id": "C127", "title": "The density of a two-phase run follows its interface", "statement": "From its start on, through every sequence of steps, changes of the mesh and restarts, the density in every cell of a run with two fluids is that of the mixture there and lies between the two densities; both methods for the interface start; the printed change of liquid is that since the start.", "quantifier": "all inputs of the multiphase physics, all initial fields, fresh and continued runs, all sequences of steps and new meshes", "why_tests_cant": "the order in which physics and equations act differs between start, restart, step and regrid; tests run one case with one method", "anchors": ["amr-wind/physics/multiphase/MultiPhase.cpp:MultiPhase::post_init_actions", "amr-wind/physics/multiphase/MultiPhase.cpp:MultiPhase::post_advance_work", "amr-wind/equation_systems/vof/vof_ops.H:PostSolveOp<VOF>", "amr-wind/equation_systems/levelset/levelset_ops.H:PostSolveOp<Levelset>", "amr-wind/equation_systems/density/density_ops.H:ComputeRHSOp<Density, Scheme>", "amr-wind/equation_systems/PDE.H:PDESystem"]}
{"id": "C128", "title": "A run with a manufactured solution has its source in every cell and reports its true error", "statement": "A run with a manufactured solution starts from it, has its source at the centre of every cell of every level at all times, with the parameters of the input, and writes for every step the root mean square deviation of each component from it at that time; zero means exact in every cell.", "quantifier": "all solutions, parameters, meshes, sequences of steps and new meshes", "why_tests_cant": "the source must be there after every regrid on every rank; a test looks at the end of one run", "anchors": ["amr-wind/physics/mms/MMS.cpp:MMS::fill_src", "amr-wind/physics/mms/MMS.cpp:MMS::compute_error", "amr-wind/physics/mms/MMS.cpp:MMS::post_advance_work", "amr-wind/physics/mms/MMSForcing.cpp:MMSForcing::operator()"]}
{"id": "C129", "title": "Data written through the NetCDF interface is read back, and what is defined is found", "statement": "What is written into a part of a variable is read from that part, and nothing else changes; a series of rows appended along the unlimited dimension holds every row in order; dimensions, variables and groups that are defined are found by their names with their lengths and shapes, the tests for existence agree with the lookups, and a file is closed exactly once.", "quantifier": "all files, groups, variables, starts, counts and strides, series of any length", "why_tests_cant": "output files grow by a row per output over whole runs and are read by part; tests write one small file", "anchors": ["amr-wind/utilities/ncutils/nc_interface.cpp:NCVar::put", "amr-wind/utilities/ncutils/nc_interface.cpp:NCVar::get", "amr-wind/utilities/ncutils/nc_interface.cpp:NCVar::shape", "amr-wind/utilities/ncutils/nc_interface.cpp:NCGroup::def_dim", "amr-wind/utilities/ncutils/nc_interface.cpp:NCGroup::def_array", "amr-wind/utilities/ncutils/nc_interface.cpp:NCGroup::all_dims", "amr-wind/utilities/ncutils/nc_interface.cpp:NCFile::close", "amr-wind/utilities/ncutils/nc_interface.H:NCGroup::is_root", "amr-wind/utilities/sampling/Sampling.cpp:Sampling::write_netcdf"]}
{"id": "C130", "title": "The accepted adaptive step keeps to the CFL limit in every cell of every level", "statement": "In an adaptive run the accepted step is such that in no cell that is solved, on no level and rank, the flow crosses more than cfl of the cell in any direction, at the free surface not more than half of that over all directions together, with forces counted also if they act through the whole step, and with explicit diffusion the diffusion number is at most cfl; all ranks get the same step, however cells are spread over boxes and ranks.", "quantifier": "all meshes, mesh mappings, blankings, fields, distributions over boxes and ranks, time controls", "why_tests_cant": "the limit is a maximum over all cells of all levels and ranks; tests evaluate uniform fields", "anchors": ["amr-wind/incflo_compute_dt.cpp:incflo::compute_dt", "amr-wind/incflo_compute_dt.cpp:incflo::compute_prescribe_dt", "amr-wind/core/SimTime.cpp:SimTime::set_current_cfl", "amr-wind/incflo.cpp:incflo::Evolve", "amr-wind/equation_systems/vof/volume_fractions.H:interface_band"]}
{"id": "C131", "title": "Boundary planes recorded in the native format are replayed where and as they were recorded", "statement": "A run that records boundary planes leaves in its directory exactly its own records, each entry of the list of times with its planes; a run that replays changes no file. A replay accepts a recording exactly when its mesh agrees with that of the recording in the directions along the face; every field gets its own components on the faces they came from, and every cell of an inflow plane gets the mean of the cells on the two sides of the face.", "quantifier": "all meshes, levels, sets of faces, lists of fields, periodicities, histories of recording and replaying runs", "why_tests_cant": "the pieces (boxes, headers, components, files) are written by one run and read by another on another mesh; tests replay a few recordings made in periodic domains", "anchors": ["amr-wind/wind_energy/ABLBoundaryPlane.cpp:ABLBoundaryPlane::write_file", "amr-wind/wind_energy/ABLBoundaryPlane.cpp:ABLBoundaryPlane::write_bndry_native_header", "amr-wind/wind_energy/ABLBoundaryPlane.cpp:ABLBoundaryPlane::read_bndry_native_boxarrays", "amr-wind/wind_energy/ABLBoundaryPlane.cpp:ABLBoundaryPlane::read_header", "amr-wind/wind_energy/ABLBoundaryPlane.cpp:InletData::read_data_native", "amr-wind/wind_energy/ABLBoundaryPlane.cpp:ABLBoundaryPlane::populate_data", "amr-wind/wind_energy/ABLBoundaryPlane.H:InletData"]}
{"id": "C132", "title": "Stokes waves satisfy the conditions at the free surface to their order", "statement": "For every order from two to five, wave length, depth and gravity, the elevation, the velocities and the speed of the wave together satisfy the kinematic condition (fluid on the surface stays on it) and the dynamic condition (the same pressure everywhere on the surface: Bernoulli's equation in the frame of the wave) up to a constant times the wave height to the power order plus one, at every point of the surface and every time, for every low enough wave.", "quantifier": "all orders 2..5, lengths, depths, gravities, still water levels, offsets, points, times and heights below a bound", "why_tests_cant": "thirteen coefficients, each a ratio of polynomials of degree up to eight, enter two identities of degree five; a wrong digit in one shows only as a slightly wrong wave, and tests compare with numbers produced by the same formulas", "anchors": ["amr-wind/ocean_waves/relaxation_zones/stokes_waves_K.H:stokes_coefficients", "amr-wind/ocean_waves/relaxation_zones/stokes_waves_K.H:stokes_waves", "amr-wind/ocean_waves/relaxation_zones/stokes_waves_ops.H"]}
{"id": "C133", "title": "A change of the mesh keeps the solution", "statement": "When the mesh changes, every cell that a level had before and has after keeps its values, every new cell gets the value interpolated from the level below, no new extrema arise, the integral of each transported quantity over the domain stays the same, through any sequence of changes, and every other field has its value in every cell of the new mesh.", "quantifier": "all meshes with any number of levels and any ratios, all sequences of changes of the mesh, all fields and values, all interpolations that conserve or keep bounds", "why_tests_cant": "tests change the mesh a few times in one run; what is lost or not conserved depends on which levels appear, stay and go, and on which fields the run uses", "anchors": ["amr-wind/incflo_regrid.cpp", "amr-wind/core/FieldRepo.cpp:FieldRepo::remake_level", "amr-wind/core/FieldRepo.cpp:FieldRepo::make_new_level_from_coarse", "amr-wind/core/FieldFillPatchOps.H", "amr-wind/incflo.cpp:incflo::regrid_and_update", "amr-wind/equation_systems/AdvOp_Godunov.H"]}
{"id": "C134", "title": "A restarted run continues as the run that wrote the checkpoint", "statement": "Reading a checkpoint gives the mesh and every saved field as they were, in every cell of every level; a checkpoint with missing fields is refused unless this is allowed; a run restarted from it goes on with the same values as the run that was not interrupted, through any steps and changes of the mesh; and what the input prescribes on the mesh (forest, terrain, bodies, sources, wall distance, mesh map, reference state) is there in every cell after every history of steps, changes of the mesh and restarts.", "quantifier": "all histories of steps, changes of the mesh and restarts, all meshes with any number of levels, all fields and values, all sets of saved fields", "why_tests_cant": "tests restart a few runs once; what is lost depends on the order of restarts and changes of the mesh and on the physics in use", "anchors": ["amr-wind/utilities/IOManager.cpp:IOManager::write_checkpoint_file", "amr-wind/utilities/IOManager.cpp:IOManager::read_checkpoint_fields", "amr-wind/utilities/io.cpp:incflo::ReadCheckpointFile", "amr-wind/incflo.cpp:incflo::init_mesh", "amr-wind/incflo.cpp:incflo::init_amr_wind_modules", "amr-wind/incflo.cpp:incflo::MakeNewLevelFromScratch"]}
{"id": "C135", "title": "With explicit diffusion the time step that is chosen keeps diffusion stable", "statement": "With explicit diffusion and an adaptive time step, diffusion alone never makes a value above the greatest or below the least one of the field and of the values given on its boundary: for the momentum and for every scalar, on all meshes and with all viscosities and densities; repeated steps do not grow without bound.", "quantifier": "all meshes without refined cells, fields, viscosities, diffusivities, densities, sequences of steps", "why_tests_cant": "whether a step is stable depends on the greatest ratio over all cells and faces; tests use uniform fluids and short runs in which growth is not seen", "anchors": ["amr-wind/incflo_compute_dt.cpp:incflo::compute_dt", "amr-wind/core/SimTime.cpp:SimTime::set_current_cfl", "amr-wind/equation_systems/CompRHSOps.H:ComputeRHSOp", "amr-wind/equation_systems/DiffusionOps.H:DiffusionOp", "amr-wind/diffusion/incflo_diffusion.cpp:average_velocity_eta_to_faces"]}
{"id": "C136", "title": "States in balance are kept by whole time steps", "statement": "If the density has no equation of its own, a uniform flow whose forces are balanced by the stored pressure gradient (no forces, or a geostrophic wind), and a fluid at rest whose weight is balanced by it, are returned unchanged by any number of time steps of any lengths: velocity, density, scalars and pressure gradient are the same, with the Godunov scheme and with the method of lines, explicit, Crank-Nicolson and implicit diffusion, any number of fixed-point iterations, and whatever was left in old states and stored terms.", "quantifier": "all meshes of closed cells, balanced states, schemes and diffusion types, sequences of time steps, numbers of iterations, contents of left-over memory", "why_tests_cant": "the result of a step combines every operator and every stored term; a term that is dropped, stale or used twice shows only when all others vanish together, for all sequences of steps", "anchors": ["amr-wind/incflo_advance.cpp:incflo::ApplyPredictor", "amr-wind/incflo_advance.cpp:incflo::ApplyCorrector", "amr-wind/equation_systems/icns/icns_ops.H:SrcTermOp<ICNS>", "amr-wind/equation_systems/icns/icns_advection.H:AdvectionOp<ICNS, fvm::Godunov>", "amr-wind/equation_systems/AdvOp_Godunov.H:AdvectionOp", "amr-wind/equation_systems/CompRHSOps.H:ComputeRHSOp"]}
{"id": "C137", "title": "Operations on whole fields change what is asked for and nothing else", "statement": "Adding, copying, linear updates, linear combinations and divisions of fields act on the components asked for, in the cells of every box of the active levels and in as many ghost cells as asked for, and leave all other values alone; an update is taken back by the one with the opposite coefficient; a division takes as many divisors as components or a single one and stops the run otherwise. A lower bound holds afterwards in all cells of boxes and is idempotent; normalising gives vectors of length one in the same direction and is idempotent. The greatest magnitude of a field is that of all cells of all active levels and depends neither on the cutting into boxes nor on the ranks.", "quantifier": "all layouts of boxes and levels, fields, components, numbers of ghost cells, coefficients, distributions over ranks", "why_tests_cant": "the loops run over components, ghost regions, boxes, levels and ranks; a wrong offset or region shows only with particular components and widths, and a wrong reduction only with particular distributions", "anchors": ["amr-wind/core/field_ops.H:field_ops::add", "amr-wind/core/field_ops.H:field_ops::copy", "amr-wind/core/field_ops.H:field_ops::saxpy", "amr-wind/core/field_ops.H:field_ops::xpay", "amr-wind/core/field_ops.H:field_ops::lincomb", "amr-wind/core/field_ops.H:field_ops::divide", "amr-wind/core/field_ops.H:field_ops::lower_bound", "amr-wind/core/field_ops.H:field_ops::global_max_magnitude", "amr-wind/core/field_ops.H:field_ops::normalize"]}
{"id": "C138", "title": "Ghost cells hold the values of the neighbourhood, however the mesh is cut into boxes", "statement": "Filling a field changes only ghost cells. A ghost cell that another box of the level holds, or holds a period away, gets that value; beyond a side of the domain with given values it gets the given one, beyond sides with extrapolation of order zero the value of the nearest cell of the domain, and beyond sides with hoextrap the value on the side that a profile of second degree through three cells has there; elsewhere it is interpolated from the coarser level and never takes what memory held before. The result does not depend on how the cells of a level are cut into boxes, nor on the order in which levels are filled, nor on how often; operations that read neighbouring cells within the filled width therefore give the same result for every cutting. A uniform field stays uniform and without hoextrap bounds of the data are bounds of the ghost cells. Setting boundary values once more after filling changes nothing. The same holds for velocities on faces, filled together: faces of boxes keep their values, a ghost face gets the value of the face of another box, that of the nearest face of the domain or the given one.", "quantifier": "all layouts of boxes and nested levels, domains, periodic directions, boundary values, widths, fields in cells and on faces, components, orders of levels", "why_tests_cant": "a ghost cell can lie beside any number of boxes, sides, edges, corners and level boundaries; tests use a few cuttings of a small mesh", "anchors": ["amr-wind/core/Field.cpp:Field::fillpatch", "amr-wind/core/Field.cpp:Field::fillphysbc", "amr-wind/core/FieldFillPatchOps.H:FieldFillPatchOps::fillpatch", "amr-wind/core/FieldFillPatchOps.H:FieldFillPatchOps::fillphysbc", "amr-wind/core/Field.cpp:Field::fillpatch_sibling_fields", "amr-wind/core/FieldFillPatchOps.H:FieldFillPatchOps::fillpatch_sibling_fields", "amr-wind/wind_energy/ABLFillInflow.cpp:ABLFillInflow::fillpatch_sibling_fields", "amr-wind/core/FieldFillPatchOps.H:FieldFillConstScalar", "amr-wind/core/FieldBCOps.H:DirichletOp"]}
{"id": "C139", "title": "The history file of an actuator holds one record for each due step, in order", "statement": "For each wing, disk and turbine a run makes one file, named after its starting step and its label. Everything whose value depends on time gets exactly one new row per record, the same row for all variables of the record, with the values of that record; older rows never change, and everything else is written once. Records are made at the steps after the start that are multiples of the frequency, in order, each with the time reached by the step. A run restarted from a later step writes to another directory; the records of the first file up to the restart, followed by those of the second, are the history of an uninterrupted run.", "quantifier": "all kinds of actuators, numbers of points, frequencies, starting steps, numbers of steps, restarts, flows and contents of the disk", "why_tests_cant": "rows are assigned by asking the file for its length, several variables grow one shared dimension, and restarts can happen at any step; tests write a record or two", "anchors": ["amr-wind/wind_energy/actuator/wing/wing_ops.H:ProcessOutputsOp", "amr-wind/wind_energy/actuator/wing/wing_ops.cpp:prepare_netcdf_file", "amr-wind/wind_energy/actuator/wing/wing_ops.cpp:write_netcdf", "amr-wind/wind_energy/actuator/disk/uniform_ct_ops.H:ProcessOutputsOp", "amr-wind/wind_energy/actuator/disk/disk_ops.cpp:write_netcdf", "amr-wind/wind_energy/actuator/turbine/turbine_utils.cpp:write_netcdf", "amr-wind/wind_energy/actuator/Actuator.cpp:Actuator::prepare_outputs", "amr-wind/wind_energy/actuator/Actuator.cpp:Actuator::post_advance_work"]}
{"id": "C140", "title": "Results do not depend on how the mesh is cut into boxes or on the number of ranks", "statement": "Any sequence of loops over cells, fills of ghost cells, reductions over all cells, linear solves and arithmetic with the reduced values, in which every loop reads only ghost cells filled or computed since their field was last changed and does not read its own result in other cells, computes the same values in every cell and the same reduced values for every way to cut the cells of the levels into boxes and to distribute these to ranks. What ghost cells held before does not matter. The update of the Smagorinsky viscosity, the integral of kinetic energy, and any number of steps of convection and projection are such sequences.", "quantifier": "all sequences, loop bodies, widths, meshes with refinement, cuttings into boxes, distributions to any number of ranks, fields and boundary values", "why_tests_cant": "regression tests run a case on one or two numbers of ranks with one box size; a missing fill shows only in cells beside a cut", "anchors": ["amr-wind/core/Field.cpp:Field::fillpatch", "amr-wind/turbulence/LES/Smagorinsky.cpp:update_turbulent_viscosity", "amr-wind/utilities/sampling/KineticEnergy.cpp:calculate_kinetic_energy", "amr-wind/turbulence/LES/Kosovic.cpp:update_turbulent_viscosity", "amr-wind/fvm/strainrate.H:StrainRate", "amr-wind/fvm/divergence.H:Divergence"]}
{"id": "C141", "title": "Diffusion acts with the laminar plus the turbulent coefficient on every face, however the mesh is cut", "statement": "After any number of steps each equation diffuses with laminar plus turbulent coefficient: velocity with viscosity plus turbulent viscosity, temperature with the laminar plus the turbulent diffusivity of heat, scalars with the viscosities over their Schmidt numbers, the subgrid energy of the one-equation models with twice the turbulent viscosity, tke and sdr of the k-omega models with blended factors. On a face between two cells of a level the coefficient is the mean of those of the cells, whichever boxes hold them, on a side of the domain that of the cell inside. Boxes that share a face have the same coefficient on it, so what leaves one enters the other. The coefficients do not depend on earlier steps. A run stops for a scalar for which its model has no rule, and only then.", "quantifier": "all turbulence models, equations, meshes with refinement, cuttings into boxes, periodic directions, histories of steps, viscosities and factors", "why_tests_cant": "a ghost cell that is not set shows only on faces beside cuts between boxes, as a wrong coefficient of the same order; tests compare single boxes or whole runs with earlier ones", "anchors": ["amr-wind/turbulence/LaminarModel.cpp:Laminar::update_mueff", "amr-wind/turbulence/TurbModelBase.H:TurbModelBase::update_mueff", "amr-wind/turbulence/LES/AMD.cpp:AMD::update_alphaeff", "amr-wind/turbulence/RANS/KOmegaSST.cpp:KOmegaSST::update_scalar_diff", "amr-wind/turbulence/RANS/KLAxell.cpp:KLAxell::update_alphaeff", "amr-wind/turbulence/LES/OneEqKsgs.cpp:OneEqKsgsM84::update_alphaeff", "amr-wind/turbulence/LES/Kosovic.cpp:Kosovic::update_alphaeff", "amr-wind/diffusion/incflo_diffusion.cpp:average_velocity_eta_to_faces"]}
{"id": "C142", "title": "The structure built for a turbine is the one its description gives", "statement": "For a turbine solved by Kynema, at every place along a blade or the tower the axis, the twist, the section, the diameter and the thickness of the wall handed to the solver are those of the description file at that place, and at every angle the coefficients of an airfoil are those of the file at that angle. Sections, nacelle, yaw bearing and hub have mass matrices that give the kinetic energy of the material described, for every motion; the hub includes the generator, which turns faster by the ratio of the gearbox. A file whose tables do not fit together is refused.", "quantifier": "all tables of any length at any places, all distributions of mass in sections and bodies, all motions", "why_tests_cant": "the files of tests give all tables at the same places; a table at other places gives another turbine without any message", "anchors": ["amr-wind/wind_energy/actuator/turbine/kynema/KynemaIface.cpp:build_turbine", "amr-wind/wind_energy/actuator/turbine/kynema/KynemaIface.cpp:build_aero"]}
{"id": "C143", "title": "Checkpoints made coarser or finer hold the same flow", "statement": "coarsen-chkpt adds a coarser base level to the mesh of a checkpoint: each cell of it has the mean of the eight cells in it, so totals over the domain, bounds and linear fields are kept, and values at nodes stay at their place; the existing levels, step, time and time steps are kept; meshes too small to be coarsened are refused. refine-chkpt doubles the resolution: every level written covers the level it replaces, keeps the values of the finer level where there was one, and the eight new values in a cell have the old one as mean. Making a checkpoint finer and then coarser gives back its base level.", "quantifier": "all checkpoints with any number of levels, all fields, meshes and interpolations that keep means", "why_tests_cant": "a test compares one file; that levels vanish or a total changes shows only with other meshes than the tested one", "anchors": ["tools/utilities/coarsen-chkpt/coarsen_chkpt.cpp:main", "tools/utilities/coarsen-chkpt/CoarsenCheckpt.cpp:CoarsenCheckpt::read_chkpt_add_baselevel", "tools/utilities/coarsen-chkpt/CoarsenCheckpt.cpp:CoarsenCheckpt::average_down_all_fields", "tools/utilities/refine-chkpt/RefineCheckpt.cpp:RefineCheckpt::run_utility", "amr-wind/utilities/IOManager.cpp:IOManager::write_checkpoint_file"]}
{"id": "C144", "title": "The comparison with a reference reports the error of a multilevel file", "statement": "compareMultilevelToReference reports no error just if every variable compared agrees, in every cell with no finer cell above it, with the mean of the reference over the cell; the maximum is the largest difference and L2error the root of the integral of the squared difference up to a factor of the mesh.", "quantifier": "all files, levels, ratios between levels and to the reference, references and variables", "why_tests_cant": "the program is its own measure: an error it does not count is not seen", "anchors": ["tools/utilities/compareMultilevelToReference/compareMultilevelToReference.cpp:main"]}
{"id": "C145", "title": "A table made from a file has every cell of the base level once, with its values", "statement": "PlotfileToCSV and CheckpointToCSV write one row for every cell of the base level, with the values of that cell, each under the name of its field and direction.", "quantifier": "all files, cuttings into boxes, numbers of levels and additional fields", "why_tests_cant": "tables of small one-level files are compared; with finer levels values from elsewhere look as good", "anchors": ["tools/utilities/PlotfileToCSV/PlotfileToCSV.cpp:main_main", "tools/utilities/CheckpointToCSV/CheckpointToCSV.cpp:main_main", "tools/utilities/CheckpointToCSV/CheckpointFileUtil.cpp:CheckpointFileDataImpl::get"]}
{"id": "C146", "title": "Planes made by the script lie where a run reads them", "statement": "A boundary plane made from an input file has, on every level of the mesh, the two layers of cells at the face; its values are those of the given function at the centres of these cells, so that the run reads in each cell of its plane the mean of the function at both sides of the face.", "quantifier": "all meshes, numbers of levels, ratios between levels, faces and functions", "why_tests_cant": "the script is used with one face and ratio; with another ratio the files are read without complaint", "anchors": ["tools/native_boundary_plane.py:parse_input_file", "tools/native_boundary_plane.py:adjust_plane", "tools/native_boundary_plane.py:NativeBoundaryPlane.define_from_file", "tools/amrex_plotfile.py:AmrexPlotFile.define", "tools/amrex_plotfile.py:AmrexPlotFile.coordinates"]}
{"id": "C147", "title": "A refined boundary plane fits the finer run and has the same values", "statement": "A boundary plane refined by a ratio has the boxes, sizes and bounds of the plane of the mesh with that many times the cells, is accepted by a run with that mesh, and the values read are the recorded ones interpolated to the centres of the finer cells; linear fields are kept.", "quantifier": "all recorded planes with any number of levels, ratios, faces and values", "why_tests_cant": "a run with a refined plane does not stop when nothing is read from it", "anchors": ["tools/native_boundary_plane.py:NativeBoundaryPlane.refine", "tools/amrex_utils.py:interpolate", "tools/refine_native_boundary_plane.py:main", "amr-wind/wind_energy/ABLBoundaryPlane.cpp:InletData::read_data_native"]}
{"id": "C148", "title": "Tables made from native samples have each step and each probe once, in order", "statement": "The table of a sampler has one row for each of its probes, in the order of their numbers, with its values, whatever the order of particles in the files; a time series has one row for every directory, in the order of steps, with the values of the probe asked for.", "quantifier": "all orders of particles in files, numbers of samplers and probes, sets of steps with names of any length", "why_tests_cant": "short runs have names of one length; particles come in another order with every decomposition", "anchors": ["tools/convert_native_sample_to_time_series.py:main", "tools/convert_native_sampling_to_structured_ascii.py:main", "tools/amrex_particle.py:AmrexParticleFile.load_binary_data"]}
{"id": "C149", "title": "A comparison of particle files accepts just files that agree", "statement": "Two particle files are accepted only if their times and all values of particles with the same number agree within the tolerances; with no tolerance, only if they have the same particles in whatever order.", "quantifier": "all files, orders of particles, tolerances and values including what is not a number", "why_tests_cant": "tests compare files of good runs; a wrong result hidden by a value that is not a number is never in them", "anchors": ["tools/fcompare_particles.py:main"]}
{"id": "C150", "title": "Conversion of an HDF5 plotfile puts every value in its cell", "statement": "In the array that is saved, each variable has in each cell of each box the value written for it, and zero in cells of no box; rows are in the order of the variables; boxes of different size are refused.", "quantifier": "all numbers and places of boxes that do not overlap, numbers of variables, data", "why_tests_cant": "one box or few variables do not show offsets or the order of attributes", "anchors": ["tools/convert_amrex_hdf5_plotfile.py:main"]}
{"id": "C151", "title": "Inputs prepared from an earlier run hold its means, and the solver uses them", "statement": "The script that prepares a run with inflow and outflow writes the means of forces, wind and temperature over the records between the two times given, refuses times with no record, leaves other entries of the input file as they are, and the solver then uses the values written and the profile of temperature.", "quantifier": "all statistics, times, heights and input files, with entries in any order and repeated runs of the script", "why_tests_cant": "one input file and one window do not show entries that come twice or in another order", "anchors": ["tools/calc_inflowoutflow_stats.py:ABLInflowOutflowPrep", "amr-wind/equation_systems/icns/source_terms/ABLMeanBoussinesq.cpp:read_temperature_profile"]}
{"id": "C152", "title": "Visualisation in the run gets every field asked for under its name", "statement": "For the fields asked for, the data handed to Ascent has on every level one column for each component of each field that exists, in the order asked for, and each column has the name of what it holds; names given twice stop the run; different columns have different names.", "quantifier": "all requests, sets of fields with any numbers of components, numbers of levels", "why_tests_cant": "a few fields do not show columns out of step with names or names that meet", "anchors": ["amr-wind/utilities/ascent/ascent.cpp:AscentPostProcess", "amr-wind/utilities/io_utils.H:add_var_names"]}
{"id": "C153", "title": "Headers made later for boundary planes belong to their planes", "statement": "For boundary planes without headers, the script makes one header for each field on each side, with the data of that plane and the time of its step, leaves headers that are there unless told to overwrite them, whatever the names of fields and directories.", "quantifier": "all sets of fields and sides, names of fields and directories, tables of times including those of several runs put together", "why_tests_cant": "one directory with usual names shows neither names with an underscore nor paths that have the suffix inside", "anchors": ["tools/generate_native_boundary_plane_header.py:main"]}
{"id": "C154", "title": "Slices are windows into their arrays, and actuators share the arrays of a rank without overlap", "statement": "A slice of an array has the asked number of elements, its element i is the element start+i of the array, writing it changes that element only, and slices not inside the array are refused; points written by the actuators of a rank stand in the array one after the other, and velocities read there are handed back to the actuators the points came from.", "quantifier": "all arrays, starts and numbers of elements, numbers of actuators and of points of each, builds with and without assertions", "why_tests_cant": "tests take a few slices inside of a short array; the sum that wraps around and the partition for every list of numbers are out of reach", "anchors": ["amr-wind/core/Slice.H:Slice,slice", "amr-wind/wind_energy/actuator/Actuator.cpp:update_positions,update_velocities", "amr-wind/wind_energy/actuator/ActuatorModel.H:update_positions,update_fields"]}
{"id": "C155", "title": "The turbulence model and the transport model are those named in the input", "statement": "A run starts exactly if the names of the turbulence model and of the transport model, Laminar and ConstTransport where none is given, are names of models of the code; it then has the models of these names, and the transport model the turbulence model works with is of the same kind as that of the simulation.  Other names stop the run.", "quantifier": "all strings given for the two names, given or not, and any set of registered names without hyphens", "why_tests_cant": "the two names are joined into one key; that no other pair of strings gives the key of a registered class is a statement about all strings", "anchors": ["amr-wind/CFDSim.cpp:create_transport_model,create_turbulence_model", "amr-wind/turbulence/TurbModelDefs.H:INSTANTIATE_TURBULENCE_MODEL", "amr-wind/turbulence/TurbModel.H:TurbModel", "amr-wind/core/Factory.H:create"]}
