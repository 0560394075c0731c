{"id": "C01", "title": "jump_ahead(n) is indistinguishable from drawing n numbers", "statement": "For the LCG random number generator, calling jump_ahead(n) on a generator leaves it producing exactly the same sequence of later numbers as calling the generator n times would.", "quantifier": "every 64-bit seed and every 64-bit skip count n (including 0 and seeds with the top bit set), and every later draw", "why_tests_cant": "2^64 seeds times 2^64 skip lengths; a test can compare a handful of short skips, and long skips cannot be executed one draw at a time.", "anchors": ["src/util/rng_lcg.hpp:RNG_LCG::jump_ahead", "src/util/rng_lcg.hpp:RNG_LCG::operator()"]}
{"id": "C02", "title": "the random stream has full period", "statement": "Starting from any seed, the generator visits every 63-bit state exactly once in each 2^63 consecutive draws; no state repeats earlier.", "quantifier": "every starting seed; all pairs of draw positions in a window of 2^63", "why_tests_cant": "2^63 draws can never be executed by a test.", "anchors": ["src/util/rng_lcg.hpp:RNG_LCG::operator()", "src/util/rng_lcg.hpp:RNG_LCG::m_"]}
{"id": "C03", "title": "random() stays in [0,1) and random_int(n) in [0,n)", "statement": "random() returns a number in the half-open interval [0,1) as documented, and therefore random_int(ubound) returns an index that is at least 0 and strictly below ubound, for every generator state.", "quantifier": "every generator state reachable from any seed, every positive upper bound", "why_tests_cant": "The offending states are 512 out of 2^63; random testing never meets them, but the generator has full period so every run could.", "anchors": ["src/util/rng_lcg.hpp:RNG_LCG::random", "src/util/rng_lcg.hpp:RNG_LCG::random_int"]}
{"id": "C04", "title": "particle histories draw from disjoint parts of the random stream", "statement": "Two different particle histories of a Monte Carlo run that each use fewer than 10000 random numbers never use a common position of the generator's stream, so results of histories are statistically independent and each history is reproducible from its id alone.", "quantifier": "every pair of history ids over the whole run and every number of draws below the stride", "why_tests_cant": "Overlaps appear only after several hundred thousand histories and show up as correlation, not as a wrong value in a unit test.", "anchors": ["src/sweepers/mc/particle_pusher.cpp:ParticlePusher::simulate", "src/util/rng_lcg.hpp:RNG_LCG::jump_ahead"]}
{"id": "C05", "title": "floating-point equivalence only equates neighbouring values", "statement": "fp_equiv_ulp(x, y) is defined for all finite doubles, symmetric, true when x and y are equal, and true for two finite doubles exactly when fewer than 200 representable doubles separate them; in particular it never equates numbers of clearly different sign or magnitude.", "quantifier": "every pair of finite IEEE double bit patterns", "why_tests_cant": "2^128 pairs of bit patterns; the failing pairs are isolated points far from values used in tests.", "anchors": ["src/util/fp_utils.hpp:fp_equiv_ulp", "src/util/fp_utils.hpp:fp_equiv"]}
{"id": "C06", "title": "brace lists parse to exactly the numbers written", "statement": "explode_braces returns, for every string made of whitespace, numbers and brace groups, one entry per naked number (as a singleton) and one per brace group, containing exactly the numbers in the text in order, or throws; it always terminates.", "quantifier": "every string over digits, whitespace and braces", "why_tests_cant": "The input language is infinite; specific spacing patterns lose digits or do not terminate.", "anchors": ["src/util/string_utils.cpp:explode_braces", "src/util/string_utils.cpp:explode_string"]}
{"id": "C07", "title": "print_range describes exactly the set of true indices", "statement": "The text produced by print_range denotes precisely the indices whose flag is true, as ascending, non-overlapping, non-adjacent ranges.", "quantifier": "every vector of booleans of any length", "why_tests_cant": "All boolean vectors of all lengths; a test fixes a few patterns.", "anchors": ["src/util/string_utils.cpp:print_range"]}
{"id": "C08", "title": "rational_approximation terminates within bounds and brackets the target", "statement": "For a target in [0,1] and a maximum denominator D, rational_approximation terminates and returns a fraction with denominator between 1 and D; if it reports success through the tolerance then the fraction is within the tolerance; and the result is a closest fraction with denominator at most D, as documented.", "quantifier": "every target in [0,1], every tolerance and every denominator bound", "why_tests_cant": "A real-valued target with an unbounded number of search steps; only particular targets make the returned fraction not the closest one.", "anchors": ["src/util/rational_approximation.hpp:rational_approximation", "src/sweepers/moc/ray_data.cpp:RayData::modularize_angle"]}
{"id": "C09", "title": "normalization preserves shape and fixes the total", "statement": "Normalize scales an array by one common positive factor so that the sum of its entries equals the number of positive entries (for non-negative data with at least one positive entry); ratios between entries are unchanged and applying it twice is the same as once.", "quantifier": "every array of non-negative numbers of every length with a positive entry", "why_tests_cant": "Arbitrary length and values.", "anchors": ["src/util/utils.hpp:Normalize", "src/util/utils.hpp:Scale"]}
{"id": "C10", "title": "coarse cell index and position are inverse bijections", "statement": "The coarse-mesh cell index of a position and the position of a cell index are mutually inverse bijections between [0, nx*ny*nz) and the grid of positions.", "quantifier": "every mesh size nx, ny, nz and every cell", "why_tests_cant": "Unbounded mesh sizes; unit tests use one or two fixed meshes.", "anchors": ["src/core/mesh.hpp:Mesh::coarse_cell", "src/core/mesh.hpp:Mesh::coarse_position"]}
{"id": "C11", "title": "coarse surfaces are numbered without gaps or clashes", "statement": "Every one of the six faces of every cell has a surface index below n_surf; two (cell, face) pairs have the same index exactly when they are the same physical face (either the same face of the same cell or the shared face of adjacent cells), and every index in [0, n_surf) is some face.", "quantifier": "every mesh size and every pair of cell faces", "why_tests_cant": "Quantifies over all sizes and all pairs; a single transposed stride would pass tests on square meshes.", "anchors": ["src/core/mesh.cpp:Mesh::prepare_surfaces", "src/core/mesh.hpp:Mesh::coarse_surf", "src/core/mesh.hpp:Mesh::n_surf"]}
{"id": "C12", "title": "surface neighbours are the two cells that touch the surface", "statement": "For every surface, coarse_neigh_cells returns the cell on its low side and the cell on its high side (or -1 outside the domain); the low cell's positive face and the high cell's negative face are that surface.", "quantifier": "every mesh size and every surface index", "why_tests_cant": "All sizes, all indices; depends on div/mod decoding of surface indices.", "anchors": ["src/core/mesh.hpp:Mesh::coarse_neigh_cells", "src/core/mesh.hpp:Mesh::coarse_surf"]}
{"id": "C13", "title": "surface normal and surface area agree with the face", "statement": "For each face of each cell, the normal reported for the surface index is the axis of that face, and the area looked up by surface index equals the area looked up by (cell, face).", "quantifier": "every mesh size, every set of pin pitches, every face", "why_tests_cant": "All sizes and pitches.", "anchors": ["src/core/mesh.hpp:Mesh::surface_normal", "src/core/mesh.hpp:Mesh::coarse_area"]}
{"id": "C14", "title": "stepping to a neighbour and asking for the interface agree", "statement": "coarse_neighbor of a cell across a face returns the adjacent cell or -1 at the boundary; stepping back across the opposite face returns to the start, and coarse_interface of the two cells is the shared surface.", "quantifier": "every mesh size, cell and face", "why_tests_cant": "All sizes, cells and faces.", "anchors": ["src/core/mesh.hpp:Mesh::coarse_neighbor", "src/core/mesh.hpp:Mesh::coarse_interface"]}
{"id": "C15", "title": "a point on the domain boundary reports every boundary it touches", "statement": "For a point on the boundary of the domain moving outward, boundary_surface reports every domain face the point lies on, so a particle in a corner is treated on all faces it leaves through.", "quantifier": "every box, every boundary point including edges and corners", "why_tests_cant": "Corner coincidences have measure zero in random tests.", "anchors": ["src/core/mesh.hpp:Mesh::boundary_surface", "src/sweepers/mc/particle_pusher.cpp:ParticlePusher::simulate"]}
{"id": "C16", "title": "boundary condition storage gives every value its own slot", "statement": "Different (group, angle, face normal, element) quadruples never share storage, all slots lie inside the allocated array, and the slots used exactly fill it; the block for one (group, angle) is contiguous in X,Y,Z order.", "quantifier": "every number of groups and angles and every per-angle face size table", "why_tests_cant": "Arbitrary sizes that differ per angle.", "anchors": ["src/core/boundary_condition.cpp:BoundaryCondition::BoundaryCondition", "src/core/boundary_condition.hpp:BoundaryCondition::get_face"]}
{"id": "C17", "title": "boundary update applies the physical boundary condition", "statement": "Updating the incoming condition from an outgoing one sets, for each angle, reflective faces to the outgoing flux of the mirrored angle, vacuum faces to zero, and leaves prescribed faces unchanged; nothing else changes, and with all-reflective faces the boundary flux is conserved.", "quantifier": "every boundary type assignment, quadrature size, group, per-face size and flux content", "why_tests_cant": "Arbitrary sizes, contents and combinations of face types.", "anchors": ["src/core/boundary_condition.cpp:BoundaryCondition::update"]}
{"id": "C18", "title": "reflect returns the mirrored direction", "statement": "For every ordinate and every axis, the reflected ordinate index is the ordinate whose direction has that component negated and all else equal; reflecting twice gives the original ordinate and reflections in different axes commute.", "quantifier": "every quadrature size and every ordinate", "why_tests_cant": "Every octant size.", "anchors": ["src/core/angular_quadrature.hpp:AngularQuadrature::reflect", "src/core/angular_quadrature.cpp:AngularQuadrature::AngularQuadrature"]}
{"id": "C19", "title": "reverse returns the opposite direction", "statement": "For every ordinate, reverse in two dimensions returns the ordinate with both in-plane components negated, and reverse in three dimensions the ordinate with all components negated; it is an involution.", "quantifier": "every quadrature size, every ordinate, both dimensionalities", "why_tests_cant": "Tests exercise only the two-dimensional case and low octants.", "anchors": ["src/core/angular_quadrature.hpp:AngularQuadrature::reverse"]}
{"id": "C20", "title": "the expanded quadrature is symmetric", "statement": "After expansion to eight octants every direction of the first octant appears once per octant with the same weight; weights sum to 8 times the octant sum; all first moments and cross moments vanish; unit vectors stay unit vectors.", "quantifier": "every first-octant quadrature", "why_tests_cant": "Arbitrary octant quadratures.", "anchors": ["src/core/angular_quadrature.cpp:AngularQuadrature::AngularQuadrature", "src/core/geometry/angle.hpp:Angle::to_octant"]}
{"id": "C21", "title": "level-symmetric sets are rotation symmetric", "statement": "For every supported order (2..16 even), the level-symmetric quadrature has N(N+2)/8 directions per octant of unit length whose weights sum to one and are unchanged under any permutation of the three direction cosines; all table lookups stay in bounds.", "quantifier": "every supported order and every direction", "why_tests_cant": "Requires cross-checking the whole tables for all orders, including those no test uses.", "anchors": ["src/core/level_symmetric.hpp:GenSn"]}
{"id": "C22", "title": "the scattering matrix stores what it was given", "statement": "A scattering matrix built from a dense matrix returns the same matrix through as_vector and to(), and out(g) equals the sum of column g of the dense matrix.", "quantifier": "every square matrix of every size (finite entries)", "why_tests_cant": "Arbitrary sparsity patterns and signs.", "anchors": ["src/core/scattering_matrix.cpp:ScatteringMatrix", "src/core/scattering_matrix.hpp:ScatteringMatrix::as_vector"]}
{"id": "C23", "title": "the outgoing-group CDF is a distribution", "statement": "For each incoming group with positive outscatter, the scattering CDF is non-decreasing, starts at or above zero, ends at one, and its increments are the normalised scattering probabilities of the dense matrix.", "quantifier": "every non-negative scattering matrix and incoming group", "why_tests_cant": "Arbitrary matrices.", "anchors": ["src/core/scattering_matrix.hpp:ScatteringMatrix::out_cdf"]}
{"id": "C24", "title": "each flat source region belongs to exactly one cross-section region", "statement": "The cross-section mesh assigns each flat source region to exactly one cross-section region, whose material is the material filling that region.", "quantifier": "every arrangement of pins and materials", "why_tests_cant": "Arbitrary geometries.", "anchors": ["src/core/xs_mesh.cpp:XSMesh::XSMesh"]}
{"id": "C25", "title": "expanded cross sections always reflect the requested group", "statement": "After ExpandedXS::expand(g) the per-region array holds the current transport cross section of group g of each region, whatever sequence of expand calls (with or without splitting) and cross-section updates came before.", "quantifier": "every history of expand / expand-with-split / update calls", "why_tests_cant": "The stale result needs a particular three-call history.", "anchors": ["src/core/xs_mesh.hpp:ExpandedXS::expand"]}
{"id": "C26", "title": "flux-volume homogenisation preserves reaction rates", "statement": "The homogenised transport, fission, nu-fission, kappa-fission and scattering cross sections of a pin multiplied by the pin's flux integral equal the sum of the region reaction rates; the homogenised fission spectrum sums to one when there is fission.", "quantifier": "every number of regions and materials, volumes, fluxes and cross sections", "why_tests_cant": "Arbitrary region counts and data.", "anchors": ["src/core/xs_mesh_homogenized.cpp:XSMeshHomogenized::homogenize_region_flux", "src/core/xs_mesh_homogenized.cpp:XSMeshHomogenized::homogenize_region"]}
{"id": "C27", "title": "Monte Carlo reaction sampling follows the cross sections", "statement": "For each group the reaction CDF is non-decreasing and ends at one, the probability interval of each reaction has the width of its share of the total cross section, and a reaction with zero cross section is not selected for a positive random number.", "quantifier": "every physical set of cross sections and every random number", "why_tests_cant": "Arbitrary data.", "anchors": ["src/core/xs_mesh_region.hpp:XSMeshRegion::reaction_cdf", "src/util/rng_lcg.hpp:RNG_LCG::sample_cdf"]}
{"id": "C28", "title": "multigroup source assembly conserves neutrons", "statement": "Initialising, adding fission, in-scatter and self-scatter gives each region the sum of the external, fission and scattering contributions defined by the data; summed over groups, in-scatter plus self-scatter equals total out-scatter.", "quantifier": "every number of regions and groups, all data", "why_tests_cant": "Arbitrary sizes and data; index transposition is invisible on square cases.", "anchors": ["src/core/source.cpp:Source::initialize_group", "src/core/source.cpp:Source::in_scatter", "src/core/source.cpp:Source::fission", "src/core/source_isotropic.cpp:SourceIsotropic::self_scatter"]}
{"id": "C29", "title": "each Sn differencing scheme satisfies cell balance", "statement": "For every cell and ordinate, leakage out minus leakage in plus collisions computed from the returned fluxes equals the source, for diamond difference, step characteristic and all corrected-diamond variants.", "quantifier": "every cross section, source, incoming fluxes, cell size and direction for which the denominators are positive", "why_tests_cant": "Real-valued inputs.", "anchors": ["src/sweepers/sn/sn_sweeper_dd.hpp", "src/sweepers/cmdo/sn_sweeper_cdd.hpp", "src/sweepers/cmdo/sn_sweeper_cdd_mb.hpp"]}
{"id": "C30", "title": "the Sn sweep couples each cell to its upwind neighbours", "statement": "A one-angle sweep over the mesh visits every cell once, uses as incoming flux exactly the outgoing flux of the upwind neighbour (or the boundary value), and leaves the outgoing boundary flux of each face in that face's boundary slots; hence the whole sweep satisfies global neutron balance.", "quantifier": "every mesh size, every octant, every per-cell scheme, data and boundary values", "why_tests_cant": "Arbitrary mesh sizes and sweep orders.", "anchors": ["src/sweepers/sn/sn_sweeper_variant.hpp:SnSweeperVariant::sweep_1g"]}
{"id": "C31", "title": "the MoC sweep conserves neutrons along and over rays", "statement": "For every ray, the flux lost along the segments equals incoming minus outgoing flux; the updated scalar flux satisfies the integral balance over all regions; non-negative source and boundary flux give non-negative fluxes; a flat medium in equilibrium is reproduced exactly.", "quantifier": "every set of rays, segment lengths, cross sections, sources and boundary values", "why_tests_cant": "Arbitrary ray sets and data.", "anchors": ["src/sweepers/moc/moc_sweeper_kernel.inc.hpp:sweep1g"]}
{"id": "C32", "title": "modular rays connect boundary slots one to one", "statement": "For every modular angle in octants one and two, the map from entry boundary slot to exit boundary slot defined by the rays is a bijection of [0, Nx+Ny), so no two rays write the same outgoing slot, every slot is written, and reflected rays meet rays.", "quantifier": "every pair of ray counts Nx, Ny and both octants", "why_tests_cant": "Unbounded ray counts; a clash appears only for particular counts.", "anchors": ["src/sweepers/moc/ray_data.cpp:RayData::RayData"]}
{"id": "C33", "title": "volume correction makes the rays reproduce region areas", "statement": "After FLAT correction, for each angle the sum of corrected segment length times spacing in each crossed region equals the region's area; after ANGLE correction the weighted angular sum does.", "quantifier": "every ray set in which each region is crossed, all spacings and weights", "why_tests_cant": "Arbitrary ray sets.", "anchors": ["src/sweepers/moc/ray_data.cpp:RayData::correct_volume"]}
{"id": "C34", "title": "modularised rays are never coarser than requested", "statement": "For either modularisation method the resulting ray spacing does not exceed the requested spacing, and the modularised angle approximates the requested one.", "quantifier": "every domain size, angle and requested spacing", "why_tests_cant": "Real-valued inputs; failure only on non-square domains.", "anchors": ["src/sweepers/moc/ray_data.cpp:RayData::modularize_angle"]}
{"id": "C35", "title": "sweep results do not depend on the thread schedule", "statement": "The scalar flux, currents and boundary values after a parallel MoC or Sn sweep are the same for every distribution of rays or angles over threads and every interleaving of their accumulations (exact arithmetic).", "quantifier": "every number of threads, assignment of work and order of reductions", "why_tests_cant": "Schedules cannot be enumerated by running.", "anchors": ["src/sweepers/moc/moc_sweeper_kernel.inc.hpp:sweep1g", "src/sweepers/sn/sn_sweeper_variant.hpp:SnSweeperVariant::sweep_1g"]}
{"id": "C36", "title": "setting a pin flux makes it the pin flux", "statement": "After set_pin_flux_1g(f), get_pin_flux_1g on the same treatment returns f, the intra-pin flux shape is unchanged, and the returned residual is the norm of the change, for MoC and Sn sweepers and for both PIN and PIN_PLANE treatments.", "quantifier": "every geometry, flux and pin flux", "why_tests_cant": "Arbitrary geometry with axial sub-planes.", "anchors": ["src/sweepers/moc/moc_sweeper.cpp:MoCSweeper::set_pin_flux_1g", "src/sweepers/sn/sn_sweeper.hpp:SnSweeper::set_pin_flux_1g"]}
{"id": "C37", "title": "transverse leakage is conservative and splitting keeps sources non-negative", "statement": "The height-weighted sum of the transverse leakage over a pin column equals net axial inflow through the bottom and top of the column; with splitting every region's source is non-negative and source minus added-removal times flux equals the unsplit source.", "quantifier": "every column of macroplanes, currents, sources and fluxes", "why_tests_cant": "Arbitrary data.", "anchors": ["src/sweepers/cmdo/plane_sweeper_2d3d.cpp:PlaneSweeper_2D3D::add_tl", "src/sweepers/moc/moc_sweeper.cpp:MoCSweeper::apply_transverse_leakage"]}
{"id": "C38", "title": "radial currents are expanded to every plane and only there", "statement": "After a MoC sweep with sub-planes, the radial current on each plane equals that of its macroplane, axial currents are untouched, and the surface flux is expanded in the same way.", "quantifier": "every sub-plane layout and current content", "why_tests_cant": "Arbitrary layouts; the overrun touches one axial surface.", "anchors": ["src/sweepers/moc/moc_current_worker.hpp:Current::post_sweep"]}
{"id": "C39", "title": "correction factors reproduce the MoC solution on the coarse mesh", "statement": "A corrected-diamond-difference cell evaluated with the correction factors computed from MoC surface fluxes, volume flux and collision rate returns the MoC outgoing surface fluxes and collision rate.", "quantifier": "every positive set of MoC fluxes satisfying balance", "why_tests_cant": "Real-valued inputs.", "anchors": ["src/sweepers/cmdo/correction_worker.cpp:CurrentCorrections::calculate_corrections", "src/sweepers/cmdo/sn_sweeper_cdd.hpp:SnSweeper_CDD::evaluate_2d"]}
{"id": "C40", "title": "CMFD reproduces the transport solution when nothing changes", "statement": "The CMFD operator built from transport currents and fluxes satisfies balance cell by cell, currents reconstructed from an unchanged flux equal the transport currents, interior currents cancel in the sum over cells, and partial currents differ by the net current.", "quantifier": "every mesh size, cross sections, flux and currents", "why_tests_cant": "Arbitrary meshes and data.", "anchors": ["src/core/cmfd.cpp:CMFD::setup_solve", "src/core/cmfd.cpp:CMFD::store_currents"]}
{"id": "C41", "title": "resizing the fission bank keeps only genuine sites", "statement": "resize(n) leaves exactly n sites; when shrinking, the survivors are a sub-collection of the original sites; when growing, all originals remain and additions are copies of originals.", "quantifier": "every bank, every target size, every random sequence", "why_tests_cant": "Arbitrary random sequences.", "anchors": ["src/sweepers/mc/fission_bank.cpp:FissionBank::resize"]}
{"id": "C42", "title": "the fission bank is independent of thread interleaving", "statement": "Whatever the order in which threads append fission sites, after the end-of-cycle sort the bank is the same list: sites grouped by parent in id order, each parent's sites in the order produced.", "quantifier": "every number of histories, sites per history and interleaving", "why_tests_cant": "Interleavings cannot be enumerated by running.", "anchors": ["src/solvers/monte_carlo_eigenvalue_solver.cpp:MonteCarloEigenvalueSolver::step", "src/sweepers/mc/fission_bank.hpp:FissionBank::push_back"]}
{"id": "C43", "title": "Shannon entropy is within its bounds", "statement": "For every non-empty bank whose sites lie in the mesh, the Shannon entropy is between 0 and log2 of the number of pins, is 0 when all sites share a pin and maximal when spread evenly, and computing it never touches memory outside the pin array.", "quantifier": "every bank and mesh", "why_tests_cant": "Arbitrary banks.", "anchors": ["src/sweepers/mc/fission_bank.cpp:FissionBank::shannon_entropy"]}
{"id": "C44", "title": "tally statistics are the sample statistics", "statement": "A scalar tally's mean is the weighted sum over realisations divided by the weight and its deviation is the relative standard deviation of the mean, never from a negative variance; a spatial tally's relative deviation does not depend on the normalisation; the order of scores does not matter.", "quantifier": "every sequence of scores and realisations", "why_tests_cant": "Arbitrary histories.", "anchors": ["src/sweepers/mc/tally_scalar.hpp:TallyScalar::get", "src/sweepers/mc/tally_spatial.hpp:TallySpatial::get"]}
{"id": "C45", "title": "Monte Carlo runs the requested number of cycles", "statement": "The Monte Carlo eigenvalue solver runs exactly the requested number of cycles, of which the requested number are inactive.", "quantifier": "every n_cycles and n_inactive", "why_tests_cant": "Off-by-one over all inputs.", "anchors": ["src/solvers/monte_carlo_eigenvalue_solver.cpp:MonteCarloEigenvalueSolver::solve"]}
{"id": "C46", "title": "the eigenvalue solver respects its iteration limits and stopping rule", "statement": "The eigenvalue solver performs at least min and at most max outer iterations, stops early only when both convergence criteria are met, and dumps every requested iteration that it performs.", "quantifier": "every convergence history, limit pair and list of requested dumps", "why_tests_cant": "Convergence histories are unbounded.", "anchors": ["src/solvers/eigen_solver.cpp:EigenSolver::solve"]}
{"id": "C47", "title": "power iteration keeps the integrated fission source", "statement": "The eigenvalue update keeps the volume-integrated fission source divided by k unchanged between outer iterations.", "quantifier": "every flux history", "why_tests_cant": "Real-valued histories.", "anchors": ["src/solvers/eigen_solver.cpp:EigenSolver::step", "src/core/transport_sweeper.cpp:TransportSweeper::calc_fission_source"]}
{"id": "C48", "title": "macroplanes partition the axial mesh", "statement": "Macroplanes cover every plane exactly once, in order; each plane's macroplane index is the one containing it; macroplane heights sum to the height of the core.", "quantifier": "every subplane specification", "why_tests_cant": "Arbitrary specifications.", "anchors": ["src/core/core_mesh.cpp:CoreMesh::CoreMesh", "src/sweepers/moc/moc_sweeper.hpp:MoCSweeper::moc_plane_index"]}
{"id": "C49", "title": "lattice and core maps place pins where the input draws them", "statement": "The pin at column i, row j counted from the bottom of a lattice is the one written in column i of row j counted from the bottom of the input block; point location finds the pin whose cell contains the point.", "quantifier": "every lattice size and every point", "why_tests_cant": "Arbitrary sizes and points, in particular on cell edges.", "anchors": ["src/core/lattice.cpp:Lattice::Lattice", "src/core/lattice.cpp:Lattice::get_pinmesh"]}
{"id": "C50", "title": "the tabulated exponential is accurate and in bounds", "statement": "For every argument in the tabulated range the tabulated exponential lies between the true exponential and its value plus the chord error bound, equals it at nodes, is monotone, and never reads outside the table.", "quantifier": "every argument", "why_tests_cant": "Real-valued inputs; the out-of-bounds access is at a single argument.", "anchors": ["src/core/exponential.hpp:Exponential_Linear"]}
{"id": "C51", "title": "command-line amendments change exactly the addressed value", "statement": "Applying an amendment path=value changes precisely the addressed attribute or text and nothing else, or fails leaving the document unchanged.", "quantifier": "every document and path", "why_tests_cant": "Arbitrary documents.", "anchors": ["src/input_proc.cpp:apply_amendment"]}
{"id": "C52", "title": "interrupting a run always writes the output", "statement": "When the run is interrupted by SIGINT at any moment the program writes its output and exits.", "quantifier": "every interruption point", "why_tests_cant": "Interruption points cannot be enumerated by tests.", "anchors": ["src/driver.cpp:int_handler", "src/driver.cpp:generate_output"]}
{"id": "C53", "title": "boundary values are initialised by boundary type", "statement": "After initialize_scalar(v) every boundary value read through get_face is zero if the ordinate enters through a vacuum boundary, the prescribed constant on a prescribed boundary, and v otherwise; after initialize_spectrum(s) every boundary value of group g is s(g); the layout is unchanged.", "quantifier": "every size table, number of groups, quadrature and assignment of boundary types", "why_tests_cant": "Arbitrary size tables; an offset error shows only for particular sizes.", "anchors": ["src/core/boundary_condition.cpp:BoundaryCondition::initialize_scalar", "src/core/boundary_condition.cpp:BoundaryCondition::initialize_spectrum"]}
{"id": "C54", "title": "scattering matrices that compare equal are equal", "statement": "Two scattering matrices built from dense matrices compare equal with operator== exactly when the dense matrices are equal, and a copy of a matrix compares equal to it and returns the same entries.", "quantifier": "every pair of non-negative dense matrices", "why_tests_cant": "The clash needs two particular sparsity patterns.", "anchors": ["src/core/scattering_matrix.hpp:ScatteringMatrix::operator==", "src/core/scattering_matrix.hpp:ScatteringMatrix::ScatteringMatrix"]}
{"id": "C55", "title": "self-scatter with given cross sections divides by them", "statement": "Finishing the source of a group with self-scatter and an explicit array of transport cross sections divides each region's total source by the cross section given for that region, so that the result is the equilibrium angular flux of the region for those cross sections.", "quantifier": "every number of regions, groups, source and cross-section arrays", "why_tests_cant": "Given and stored cross sections coincide unless the transverse-leakage splitting is active.", "anchors": ["src/core/source_isotropic.cpp:SourceIsotropic::self_scatter", "src/sweepers/moc/moc_sweeper.cpp:MoCSweeper::sweep"]}
{"id": "C56", "title": "level-symmetric quadrature reproduces second and fourth moments", "statement": "In every level-symmetric set of order four to sixteen the weighted mean of the square of each direction cosine is 1/3 and that of its fourth power is 1/5, up to the digits of the built-in tables.", "quantifier": "every supported order and each axis", "why_tests_cant": "No test computes moments; the errors are below the tolerance of any flux comparison.", "anchors": ["src/core/level_symmetric.hpp:GenSn", "src/core/level_symmetric.hpp:mu_base", "src/core/level_symmetric.hpp:w_unique"]}
{"id": "C57", "title": "CMFD surface results without transport data are those of diffusion", "statement": "When the coarse data hold no transport currents for a surface, the current and surface flux that CMFD::solve stores satisfy diffusion in the adjacent half cells: the same current flows through both halves between two cells, a reflective side carries no current and takes the flux of the cell, and no partial current enters through a vacuum side.", "quantifier": "for all positive diffusivities, all cell fluxes, and surfaces between cells or on either side of the domain", "why_tests_cant": "Surface fluxes and partial currents are only used by boundary updates and never compared with diffusion theory.", "anchors": ["src/core/cmfd.cpp:CMFD::setup_solve", "src/core/cmfd.cpp:CMFD::store_currents"]}
{"id": "C58", "title": "the CMFD system without corrections is symmetric and its solutions are non-negative and unique", "statement": "On every mesh with positive widths, diffusion coefficients and removal, with reflective or vacuum sides and no transport data, the CMFD matrix of a group is symmetric, has no positive element off the diagonal and row sums of at least volume times removal; so every solution for a non-negative source is non-negative and there is only one.", "quantifier": "for all mesh sizes and widths, all positive cross sections, all boundary conditions made of reflective and vacuum sides, and all sources", "why_tests_cant": "Would need all meshes and all cross sections; tests solve a few systems.", "anchors": ["src/core/cmfd.cpp:CMFD::setup_solve", "src/core/cmfd.cpp:CMFD::CMFD"]}
{"id": "C59", "title": "CMFD power iteration: eigenvalue, stopping rule and signs", "statement": "CMFD::solve makes at least one and at most max_iter iterations, fewer only if the three tolerances are met; every iteration scales k by the ratio of the neutron production of the new to that of the old flux; no negative flux is left; a flux that already solves the problem is kept together with k.", "quantifier": "for all tolerances and limits, all cross sections, and whatever the linear solver returns", "why_tests_cant": "The number of iterations of the loop and the intermediate eigenvalues are not observable in the regression tests.", "anchors": ["src/core/cmfd.cpp:CMFD::solve", "src/core/cmfd.cpp:CMFD::fission_source", "src/core/cmfd.cpp:CMFD::total_fission"]}
{"id": "C60", "title": "the fixed-source solver stops at the first converged iteration or at the limit and says so", "statement": "A fixed-source solver given a positive max_iter and flux_tol iterates until the first iteration whose flux residual is below flux_tol and no further, and performs exactly max_iter iterations if there is none; it prints the message about the limit exactly in the latter case; a max_iter or flux_tol that is missing or not positive is rejected.", "quantifier": "for all values of max_iter and flux_tol and all sequences of residuals, including ones that are not numbers", "why_tests_cant": "Regression inputs converge and have positive limits; a wrong limit means practically endless iteration.", "anchors": ["src/solvers/fixed_source_solver.cpp:FixedSourceSolver::FixedSourceSolver", "src/solvers/fixed_source_solver.cpp:FixedSourceSolver::solve"]}
{"id": "C61", "title": "max_error bounds the relative error of the tabulated exponential", "statement": "Exponential_Linear::max_error() returns a number that the relative error of exp() does not exceed anywhere in the domain of the table.", "quantifier": "for all table sizes, all ranges and all arguments within the range", "why_tests_cant": "A test can only sample arguments; max_error itself samples the middle of each cell.", "anchors": ["src/core/exponential.hpp:Exponential_Linear::max_error", "src/core/exponential.hpp:Exponential_Linear::exp"]}
{"id": "C62", "title": "intersection of two segments", "statement": "Intersect(Line, Line, Point2) returns 1 exactly if the two segments, end points included, have a point in common, and the point returned then lies on both.", "quantifier": "for all pairs of segments, including ones that touch at end points, are parallel, lie on one straight line, or have no length", "why_tests_cant": "The degenerate cases are reached by division by zero and comparisons with NaN; tests use a handful of segments.", "anchors": ["src/core/geometry/geom.hpp:Intersect"]}
{"id": "C63", "title": "intersection of a segment with a circle", "statement": "Intersect(Line, Circle, p1, p2) returns the points of the circle strictly within the segment, in order from the start of the segment; the return value is their number, a tangent gives none, and ok tells for each point whether it was assigned.", "quantifier": "for all segments of positive length and all circles", "why_tests_cant": "Tangency and segments that start within the circle are exceptional positions; an assertion that is off in release builds guards one of them.", "anchors": ["src/core/geometry/geom.hpp:Intersect"]}
{"id": "C64", "title": "distance to a surface along a direction", "statement": "distance_to_surface of a line, circle or box gives the distance at which a particle first meets the surface in front of it, the largest real number if there is none, and ignores the surface the particle is on; for a point within a box the side found is the one through which the particle leaves.", "quantifier": "for all points not within rounding distance of the surface, and all directions with the z component included", "why_tests_cant": "The answer depends on signs of several expressions; tests check single directions.", "anchors": ["src/core/geometry/line.cpp:Line::distance_to_surface", "src/core/geometry/circle.cpp:Circle::distance_to_surface", "src/core/geometry/box.cpp:Box::distance_to_surface"]}
{"id": "C65", "title": "rectangular pin mesh: regions and point location", "statement": "A rectangular pin mesh is accepted exactly for a positive pitch and at least one division each way; its areas are positive and add up to the area of the pin; find_reg(p) gives, for every point of the pin, the cell that contains it and -1 outside.", "quantifier": "for all pitches, numbers of divisions and points, including points on the edges of the pin", "why_tests_cant": "Points exactly on an edge are not tested.", "anchors": ["src/core/pin_mesh_rect.cpp:PinMesh_Rect::PinMesh_Rect", "src/core/pin_mesh_rect.cpp:PinMesh_Rect::find_reg", "src/core/pin_mesh_base.cpp:PinMesh::PinMesh"]}
{"id": "C66", "title": "rectangular pin mesh: point location with a direction", "statement": "find_reg(p, dir) gives the cell that a particle at p moving along dir is in or enters, also on the lines between cells, always a cell of the mesh for points of the pin, and -1 for a point beyond an edge that moves away from it.", "quantifier": "for all pitches, numbers of divisions, directions, and points told apart from the grid lines by the tolerances of the comparisons or exactly on them", "why_tests_cant": "Particles on grid lines arise in Monte Carlo transport at every crossing, but a wrong cell only shifts a tally.", "anchors": ["src/core/pin_mesh_rect.cpp:PinMesh_Rect::find_reg"]}
{"id": "C67", "title": "cylindrical pin mesh: rings and areas", "statement": "The constructor divides each material ring into the requested number of rings of equal area, so that every material radius is a mesh radius; the radii do not decrease and fit the pin; there is one area per region, none is negative, and together they give the area of the pin; n_fsrs adds up to the number of regions.", "quantifier": "for all pitches, radii, numbers of rings and numbers of sectors that are accepted", "why_tests_cant": "Areas are only used through sums; input that makes no sense is accepted without a message.", "anchors": ["src/core/pin_mesh_cyl.cpp:PinMesh_Cyl::PinMesh_Cyl", "src/core/pin_mesh_cyl.hpp:PinMesh_Cyl::n_fsrs"]}
{"id": "C68", "title": "cylindrical pin mesh: point location", "statement": "find_reg(p) gives, for every point of the pin, the region made of the ring between whose radii the point lies and the sector that contains its polar angle; Point2::alpha lies between 0 and 2 pi; points outside of the pin give -1.", "quantifier": "for all meshes and points, including points on the coordinate axes", "why_tests_cant": "Points exactly on the x axis are not tested.", "anchors": ["src/core/pin_mesh_cyl.cpp:PinMesh_Cyl::find_reg", "src/core/geometry/points.hpp:Point2::alpha"]}
{"id": "C69", "title": "cylindrical pin mesh: point location with a direction", "statement": "find_reg(p, dir) gives the region that a particle at p moving along dir is in or enters, also for points on rings and on the lines between sectors.", "quantifier": "for all meshes with distinct radii, all directions, and points told apart from rings and sector lines by the tolerances or exactly on them", "why_tests_cant": "The choice on a line depends on the difference of two angles modulo 2 pi; a wrong region only shifts a tally.", "anchors": ["src/core/pin_mesh_cyl.cpp:PinMesh_Cyl::find_reg"]}
{"id": "C70", "title": "box intersection gives the point where a ray leaves the box", "statement": "Box::intersect(p, angle) returns the point of the boundary of the box, other than p, that a ray from p along the angle meets, with ok set, for every p in the box and every angle.", "quantifier": "for all boxes, all points of the box and all angles, including points within and rays towards a corner", "why_tests_cant": "Used for rays that start on the boundary, where both directions give the same line; the wrong point for a start within the box cancels in the only use.", "anchors": ["src/core/geometry/box.cpp:Box::intersect"]}
{"id": "C71", "title": "tracing a ray through a rectangular pin", "statement": "PinMesh_Rect::trace splits the ray from p1 to p2 at the grid lines: the lengths add up to the distance of the ends, every piece lies within one region, and this is the region reported for it.", "quantifier": "for all rectangular meshes, all rays between points of the pin, and any sorting algorithm that orders the points by y", "why_tests_cant": "A missing or misplaced point changes track lengths by little and is hidden by the renormalisation of the segment lengths.", "anchors": ["src/core/pin_mesh_rect.cpp:PinMesh_Rect::trace"]}
{"id": "C72", "title": "tracing a ray through a cylindrical pin", "statement": "PinMesh_Cyl::trace splits the ray from p1 to p2 at the rings and the lines between sectors: the lengths add up to the distance of the ends, every piece lies within one ring and one sector, and the region of that ring and sector is reported for it.", "quantifier": "for all cylindrical meshes, all rays between points of the pin, and any sorting algorithm that orders the points by y", "why_tests_cant": "A missing crossing puts part of a track into a neighbouring region; only special positions are affected.", "anchors": ["src/core/pin_mesh_cyl.cpp:PinMesh_Cyl::trace", "src/core/pin_mesh_cyl.cpp:PinMesh_Cyl::PinMesh_Cyl"]}
{"id": "C73", "title": "dividing a ray at the boundaries of the coarse cells", "statement": "Mesh::trace leaves in the vector the two ends of a ray and all its crossings with grid lines, in order: from each point to the next the ray is within one cell, and every point between the ends is on a grid line.", "quantifier": "for all grids, all upward rays between points of the mesh, and any sorting algorithm that orders the points by y", "why_tests_cant": "A missing crossing gives one long piece that is attributed to the pin at its middle; square meshes do not show it.", "anchors": ["src/core/mesh.cpp:Mesh::trace", "src/core/mesh.cpp:Mesh::Mesh", "src/core/core_mesh.cpp:CoreMesh::CoreMesh"]}
{"id": "C74", "title": "cells and surfaces along a ray", "statement": "coarse_boundary_cell gives the cell of the first piece of a ray, and coarse_norm_point for its first point one face of this cell on the boundary of the mesh with the point on it. At each further point the surfaces of coarse_norm_point lead, face by face and with the point on each face, from the cell before the point to the cell behind it; at the last point they lead out of the mesh, with the last surface only. Every surface is one through which a ray in this direction leaves a cell.", "quantifier": "for all grids, all four octants and all rays whose last point is no corner of the mesh, including points on corners of cells", "why_tests_cant": "Rays through corners of cells are rare and handled by tables of cases; a wrong entry misplaces one contribution to a current.", "anchors": ["src/core/mesh.cpp:Mesh::coarse_norm_point", "src/core/mesh.cpp:Mesh::coarse_boundary_cell"]}
{"id": "C75", "title": "currents of a ray balance in every coarse cell", "statement": "After Current::post_ray for a ray, the net current out of every coarse cell (through its four faces) has grown by the weight of the ray times what the angular fluxes of the two directions gain over the pieces of the ray in that cell; of the surfaces on the boundary of the mesh only those at the two ends of the ray change, by the fluxes that enter and leave there; surfaces between planes and those of other planes do not change.", "quantifier": "for all meshes, planes, rays from boundary to boundary that end at no corner of the mesh, numbers of segments, and angular fluxes", "why_tests_cant": "Coarse currents feed an acceleration that converges to a nearby solution if they are slightly wrong; a ray needs hundreds of segments in one pin to show the limit of the counters.", "anchors": ["src/sweepers/moc/ray.cpp:Ray::Ray", "src/sweepers/moc/ray.hpp:RayCoarseData", "src/sweepers/moc/moc_current_worker.hpp:Current::post_ray", "src/sweepers/moc/moc_current_worker.hpp:Current::set_angle"]}
{"id": "C76", "title": "updating incoming fluxes from CMFD partial currents", "statement": "update_incoming_flux changes every incoming boundary value of the Sn and MoC sweepers once, with the data of the surface on the boundary of the mesh through which the value enters: with old partial currents it is multiplied by the ratio of new to old surface flux, without them it is set to the isotropic flux that carries the partial current into the mesh. If the partial currents have not changed, neither do the boundary values.", "quantifier": "for all meshes, directions, partial currents, boundary values and rays", "why_tests_cant": "The update only changes the speed of convergence, and it is at present not called by the eigenvalue solver.", "anchors": ["src/sweepers/sn/sn_sweeper.cpp:SnSweeper::update_incoming_flux", "src/sweepers/sn/sn_sweeper.hpp:SnSweeper::update_incoming_generic", "src/sweepers/moc/moc_sweeper.cpp:MoCSweeper::update_incoming_flux", "src/sweepers/moc/moc_sweeper.hpp:MoCSweeper::update_incoming_generic"]}
{"id": "C77", "title": "currents of an Sn sweep", "statement": "After the sweep of an ordinate with the coarse current worker, the current of every face of every cell (inner and boundary) has grown by quadrature weight times direction cosine times the angular flux at that face with which the cell equations on its two sides were solved. Hence after any sequence of ordinates the net current out of each cell is its volume times (weighted source minus cross section times scalar flux) of the same sweep, in three dimensions and in two.", "quantifier": "for all meshes, directions of any signs, boundary values, and cell equations (diamond difference, step characteristics, corrected) that are balanced", "why_tests_cant": "A swapped surface or a missing boundary face shows up as a slightly different CMFD result in one octant; every test problem is symmetric.", "anchors": ["src/sweepers/sn/sn_current_worker.hpp:Current::upwind_work", "src/sweepers/sn/sn_current_worker.hpp:Current::current_work", "src/sweepers/sn/sn_current_worker.hpp:Current::set_octant", "src/sweepers/sn/sn_sweeper_variant.hpp:SnSweeperVariant::sweep_1g"]}
{"id": "C78", "title": "directions: angles and cosines agree", "statement": "A Direction built from two angles or from three direction cosines has a unit vector and the angles of this vector; reflect changes the sign of the cosine normal to the surface and of no other, so that reflecting twice restores the vector; to_octant gives the signs of the octant; upwind_surface gives the face through which a particle in this direction enters a cell; Isotropic gives a unit vector for all random numbers in [0,1), with z component uniform in the second.", "quantifier": "for all angles with 0<theta<pi, all unit vectors that are not parallel to the z axis, all surfaces, octants and random numbers", "why_tests_cant": "Angles and cosines are computed separately; a disagreement for one quadrant shows in a few of the directions only.", "anchors": ["src/core/geometry/direction.hpp:Direction::Direction", "src/core/geometry/direction.hpp:Direction::reflect", "src/core/geometry/direction.hpp:Direction::to_octant", "src/core/geometry/direction.hpp:Direction::upwind_surface", "src/core/geometry/direction.hpp:Direction::Isotropic"]}
{"id": "C79", "title": "flight of a particle to the boundary of a pin and across it", "statement": "distance_to_pin gives the distance at which a particle in a pin leaves it. Particle::move changes the position in the pin and that in the core alike, by the distance along the direction. A particle that crosses the boundary of the core is killed at a vacuum boundary and otherwise alive, within the core, with the direction mirrored at the surface.", "quantifier": "for all pins, positions, directions, distances, boundary conditions, and sizes of the core", "why_tests_cant": "Particles at edges of the core are rare; a lost particle reads outside of the list of pin boundaries only once in millions of histories.", "anchors": ["src/sweepers/mc/particle_pusher.cpp:distance_to_pin", "src/sweepers/mc/particle_pusher.cpp:ParticlePusher::simulate", "src/sweepers/mc/particle.hpp:Particle::move", "src/core/mesh.cpp:Mesh::boundary_surface"]}
{"id": "C80", "title": "Monte Carlo collisions", "statement": "collide selects scattering, fission or capture by their shares in the transport cross section. A scattered particle stays at its place with its weight and gets a group into which there is scattering, by the shares of the groups, and an isotropic direction. A fission banks floor(w nu + r) particles at the place of the collision with the number of the particle, in groups of the fission spectrum, so that the mean number is w nu; what the collision estimator of k scores is the mean number of banked particles per collision. The particle ends after fission and capture.", "quantifier": "for all cross sections that make sense, weights, groups and random numbers, and both orders in which a compiler may evaluate the arguments of Isotropic", "why_tests_cant": "Results are averages over random numbers; a wrong limit changes them by less than the statistical error.", "anchors": ["src/sweepers/mc/particle_pusher.cpp:ParticlePusher::collide", "src/core/xs_mesh_region.hpp:XSMeshRegion::reaction_cdf", "src/core/scattering_matrix.hpp:ScatteringMatrix::out_cdf"]}
{"id": "C81", "title": "tallies of a Monte Carlo history are consistent", "statement": "After any number of steps of any history the scalar flux tally of a coarse cell is the sum of the fine flux tallies of its regions, the track-length k and the pin powers are the fine fluxes times the cross sections of the regions, and the collision k is the fine collision flux times these cross sections. The length scored in a step is that of a flight which stays within the pin it is scored in. The position in the pin is always that in the core relative to the pin. The weight and number of the particle do not change and all banked particles carry the number.", "quantifier": "for all geometries whose regions belong to the pins they are found in, cross sections, boundary conditions, random numbers and numbers of steps", "why_tests_cant": "Tallies are compared with reference solutions within their statistical error only.", "anchors": ["src/sweepers/mc/particle_pusher.cpp:ParticlePusher::simulate", "src/sweepers/mc/particle_pusher.cpp:ParticlePusher::collide"]}
{"id": "C82", "title": "distance to the next surface in a pin", "statement": "PinMesh::distance_to_surface(p, dir, coincident) reports for a point in the pin the distance at which the particle first meets a grid line, ring or sector line: until then it stays on the same side of each of them, and in rectangular pins in the region find_reg reports, as long as it is in the pin. At the distance it is on the surface whose number is returned in coincident. Without a surface ahead coincident is unchanged. A point outside of the pin gives the distance zero and the flag that the pin is left.", "quantifier": "for all meshes, directions, and points that are either told apart from every surface by the tolerance or on the surface they are said to be on", "why_tests_cant": "Missing a surface scores the rest of the flight in the wrong region, which averages out in most tallies.", "anchors": ["src/core/pin_mesh_rect.cpp:PinMesh_Rect::distance_to_surface", "src/core/pin_mesh_cyl.cpp:PinMesh_Cyl::distance_to_surface"]}
{"id": "C83", "title": "pins of the core and their positions", "statement": "Pin number i of the core is in column and row CoreMesh::pin_position(i) of its plane: the pins of a plane come lattice by lattice, each from the bottom left, and every position of every plane belongs to exactly one pin of the list. pin_origin of a position is the middle of the pin there, which is the corner of its lattice plus the pitches before it. In a lattice all pins of a column (row) have the same pitch in x (y).", "quantifier": "for all lattices, planes and cores that are accepted, with any numbers of lattices and of pins in each of them", "why_tests_cant": "All test inputs have lattices with the same number of pins, for which many wrong numberings agree.", "anchors": ["src/core/lattice.cpp:Lattice::Lattice", "src/core/plane.cpp:Plane::Plane", "src/core/plane.cpp:Plane::pin_position", "src/core/core_mesh.cpp:CoreMesh::CoreMesh", "src/core/core_mesh.cpp:CoreMesh::pin_position", "src/core/core_mesh.cpp:CoreMesh::pin_origin"]}
{"id": "C84", "title": "planes of equal geometry", "statement": "The CoreMesh assigns to each plane of the core a unique plane that has the same mesh at every place of every lattice; planes share a unique plane if and only if this is so. first_unique gives the lowest plane of each kind, and first_reg_plane the number of regions of all planes below.", "quantifier": "for all numbers of planes, all arrangements of lattices and pins, and all meshes", "why_tests_cant": "Rays are traced once per unique plane: planes taken for equal by mistake are computed with the tracks of another plane, with results that look sensible.", "anchors": ["src/core/core_mesh.cpp:CoreMesh::CoreMesh", "src/core/plane.cpp:Plane::geometrically_equivalent", "src/core/lattice.cpp:Lattice::geometrically_equivalent"]}
{"id": "C85", "title": "numbers of regions and volumes for every mesh treatment", "statement": "For each MeshTreatment volumes() has n_reg() entries that add up to the volume of the core. With TRUE they are the areas of the regions times the heights of their planes, pin by pin; those of one pin add up to the coarse volume of the cell at its position. With PLANE they are those of the lowest plane of each macroplane with the height of the macroplane. With PIN and PIN_PLANE entry coarse_cell(x,y,z) is the product of the three widths, z counting planes or macroplanes.", "quantifier": "for all cores, numbers of planes, macroplanes, and meshes whose region areas add up to the area of their pin", "why_tests_cant": "Volumes weight every homogenised quantity; an exchanged index is invisible if all planes have the same height.", "anchors": ["src/core/core_mesh.hpp:CoreMesh::n_reg", "src/core/core_mesh.hpp:CoreMesh::volumes", "src/core/core_mesh.cpp:CoreMesh::CoreMesh"]}
{"id": "C86", "title": "location of a point in the core", "statement": "CoreMesh::get_location_info gives for a point in a pin, for any direction, the mesh of this pin, its column, row and plane, its two corners, the point relative to its centre, and the number of its first region; on interfaces the direction decides, and everything belongs to the same pin. plane_index gives the plane a point is in, on interfaces the one in the given direction; without a direction it throws there.", "quantifier": "for all cores of any lattices and pitches, all points of the core and all directions", "why_tests_cant": "Points on interfaces have probability zero in histories; a wrong index reads outside of vectors silently.", "anchors": ["src/core/core_mesh.cpp:CoreMesh::get_location_info", "src/core/mesh.hpp:Mesh::plane_index"]}
{"id": "C87", "title": "region at a point", "statement": "CoreMesh::region_at_point returns the number of the region that contains the point.", "quantifier": "for all cores and all points within regions", "why_tests_cant": "The function is part of the interface of the mesh, but neither the code nor its tests call it; at the centre of the first pin the result is right.", "anchors": ["src/core/core_mesh.hpp:CoreMesh::region_at_point", "src/core/plane.cpp:Plane::get_pinmesh"]}
{"id": "C88", "title": "product quadratures", "statement": "For every n_azimuthal>=1 and n_polar>=1 the Chebyshev-Gauss quadrature has n_azimuthal*n_polar unit vectors inside the first octant with positive weights of sum one, for each azimuth all polar angles; the azimuths are the middles of equal parts of the quarter circle and integrate all even harmonics below 4 n_azimuthal; the polar angles and weights integrate polynomials of degree up to 4 n_polar-1 in the cosine exactly, so that the mean of the square of each direction cosine is one third. Chebyshev-Yamamoto is accepted for three polar angles only and has the same properties except for the degree. Other numbers throw. All one-dimensional rules have weights of sum one.", "quantifier": "for all numbers of azimuthal and polar angles", "why_tests_cant": "Tests compare a few sets with tabulated values; exactness of the moments for all orders cannot be tested.", "anchors": ["src/core/product_quadrature.hpp:GenYamamoto", "src/core/product_quadrature.hpp:GenChebyshev", "src/core/product_quadrature.hpp:GenGauss", "src/core/product_quadrature.hpp:GenProduct", "src/core/angular_quadrature.cpp:AngularQuadrature::AngularQuadrature"]}
{"id": "C89", "title": "weights after modularisation", "statement": "update_weights of a Chebyshev product quadrature gives every azimuth the share of the quarter circle that is nearer to it than to all others, and keeps the weights of the polar rule: weights are positive and sum to one; azimuths that have not been modified keep their weights; angles whose azimuths are in increasing order keep azimuth and place. It throws if and only if the number of different azimuths is not n_azimuthal.", "quantifier": "for all numbers of angles, all azimuths inside the quarter circle in any order, and all polar rules", "why_tests_cant": "Tests modify the angles of one set; coinciding and reordered azimuths do not occur.", "anchors": ["src/core/angular_quadrature.cpp:AngularQuadrature::update_chebyshev_weights", "src/core/angular_quadrature.cpp:AngularQuadrature::update_weights"]}
{"id": "C90", "title": "user-defined quadratures", "statement": "A <ang_quad type=\"user\"> gives one angle for each <angle> tag, in their order, as the tag says: three cosines or azimuth and polar angle, and the weight. What is accepted has positive weights, unit vectors without negative components, and weights that sum to one in the first octant and to eight in all octants. Every quadrature of directions inside the first octant with positive weights of sum one is accepted. Accepted directions lie unambiguously within the octant, not on an axis, and their angles agree with their cosines.", "quantifier": "for all lists of tags with any attributes missing or given and any values", "why_tests_cant": "User quadratures are tested with one well-formed input; degenerate directions give infinite track lengths or doubled directions only for unusual input.", "anchors": ["src/core/geometry/angle.cpp:Angle::Angle", "src/core/angular_quadrature_user.cpp:GenUserQuadrature", "src/core/geometry/angle.hpp:Angle"]}
{"id": "C91", "title": "saving, restoring and assigning angular quadratures", "statement": "A quadrature written by output and read back by the constructor from an HDF5 node has the same numbers, angles and weights in the same order and the type IMPORT. Files whose arrays have different lengths, or no multiple of eight, are rejected, without a read outside of an array. Assignment copies everything or throws, and throws for a source that is incompatible, that is one with another number of directions.", "quantifier": "for all quadratures, all lengths and contents of arrays in the file, and all pairs of quadratures", "why_tests_cant": "Tests save and restore one quadrature; wrong files and incompatible sources do not occur in them.", "anchors": ["src/core/angular_quadrature.cpp:AngularQuadrature::AngularQuadrature", "src/core/angular_quadrature.cpp:AngularQuadrature::output", "src/core/angular_quadrature.cpp:AngularQuadrature::operator=", "src/sweepers/cmdo/sn_sweeper_cdd.hpp:SnSweeper_CDD"]}
{"id": "C92", "title": "command line and name of the case", "statement": "The command line is accepted if and only if it consists of one file name and any number of -a, each followed by an argument that does not begin with a dash, in any order; otherwise the usage is printed. The amendments are applied to the document of this file in their order. The name of the case is the text of the first <case_name> tag, which must not be empty, or without such a tag the name of the file without its extension, in the same directory.", "quantifier": "for all command lines, paths of files, and documents", "why_tests_cant": "The program is always run with a name such as core.xml in tests; paths with dots in directories change the names of output files.", "anchors": ["src/input_proc.cpp:InputProcessor::InputProcessor", "src/input_proc.cpp:strip_extension", "src/input_proc.hpp:InputProcessor::case_name"]}
{"id": "C93", "title": "correction factors in files", "statement": "Correction factors written by CorrectionData::output are restored by from_data. Several <data> tags are accepted if and only if each names a complete file of one plane and a range of macroplanes (from 0 to the top macroplane by default) and the ranges do not overlap; each macroplane then has the values of the file of its tag, and macroplanes without one keep theirs. No file leads to a read outside of an array.", "quantifier": "for all sizes of the mesh, numbers of groups, angles and macroplanes, all lists of tags and all contents of files", "why_tests_cant": "Tests read one file of one macroplane; several macroplanes and defaults of attributes do not occur in them.", "anchors": ["src/sweepers/cmdo/correction_data.cpp:CorrectionData::from_data", "src/sweepers/cmdo/correction_data.cpp:CorrectionData::read_data_single", "src/sweepers/cmdo/correction_data.cpp:CorrectionData::read_data_multi", "src/sweepers/cmdo/correction_data.cpp:CorrectionData::output"]}
{"id": "C94", "title": "regions of cross sections", "statement": "After construction and any number of updates an XSMeshRegion holds the cross sections given last, and its removal cross section is the transport cross section less self-scatter in each group. is_fissile tells whether a nu-fission cross section is positive. Two regions compare equal if and only if their cross sections are equal.", "quantifier": "for all numbers of groups, all cross sections, and all histories of updates", "why_tests_cant": "Tests build regions once; a flag that is only computed in the constructor and a spectrum that is not compared do not show.", "anchors": ["src/core/xs_mesh_region.cpp:XSMeshRegion::XSMeshRegion", "src/core/xs_mesh_region.hpp:XSMeshRegion::update", "src/core/xs_mesh_region.hpp:XSMeshRegion::update_removal", "src/core/xs_mesh_region.hpp:XSMeshRegion::operator==", "src/core/xs_mesh_region.hpp:XSMeshRegion::is_fissile"]}
{"id": "C95", "title": "homogenised cross sections in files", "statement": "Cross sections written by XSMeshHomogenized::output and read by the constructor from files in a mesh of the same shape are restored in every region and group, scattering matrices and group bounds included, with the removal cross section that belongs to them. Several <data> tags are accepted if and only if their files are complete files of one plane and their macroplanes do not overlap; each region then has the data of its pin in the file of its macroplane, and other macroplanes keep theirs. No file leads to an access outside of an array.", "quantifier": "for all shapes of the core, numbers of macroplanes and groups, all cross sections, lists of tags and contents of files", "why_tests_cant": "Tests compare one restored file of one kind of core; files of another group structure or with fewer pins are not read.", "anchors": ["src/core/xs_mesh_homogenized.cpp:XSMeshHomogenized::XSMeshHomogenized", "src/core/xs_mesh_homogenized.cpp:XSMeshHomogenized::read_data_single", "src/core/xs_mesh_homogenized.cpp:XSMeshHomogenized::read_data_multi", "src/core/xs_mesh_homogenized.cpp:XSMeshHomogenized::output"]}
{"id": "C96", "title": "regions of homogenised meshes", "statement": "The regions of an XSMeshHomogenized are a partition of the cells of the core: region k*n+j is that of pin j of macroplane k and has the cells at the place of this pin in all planes of the macroplane, each once. After copying for a condensed mesh each region is the one cell of its pin and macroplane. update without flux changes nothing; with flux every region is computed once, from the part of the flux array that belongs to its pin.", "quantifier": "for all cores, macroplane divisions, placements of pins, and numbers of regions per pin", "why_tests_cant": "An offset into the flux array that is wrong for one pin, or a plane counted twice, changes homogenised cross sections only slightly.", "anchors": ["src/core/xs_mesh_homogenized.cpp:XSMeshHomogenized::XSMeshHomogenized", "src/core/xs_mesh_homogenized.cpp:XSMeshHomogenized::update"]}
{"id": "C97", "title": "material library", "statement": "A library file is accepted if and only if it has the numbers of groups and materials, the group bounds, and below a header for each material a row of four values per group and a square scattering table; comments, blank lines and text after the last material do not matter. Headers have the form XSMACRO name number and names differ. Materials have the cross sections of their rows, chi normalised to one, and the transport cross section equal to absorption plus scattering out of the group. Tags map identifiers to materials by name and fail if and only if a name is unknown; the material at the index of an identifier is that of the identifier, and n_materials is the number of identifiers.", "quantifier": "for all files (all sequences of lines), all lists of tags, all values", "why_tests_cant": "Libraries in tests are well-formed; misspelled headers, repeated names and repeated identifiers do not occur in them.", "anchors": ["src/core/material.cpp:Material::Material", "src/core/material_lib.cpp:MaterialLib::MaterialLib", "src/core/material_lib.cpp:MaterialLib::assignID", "src/core/material_lib.hpp:MaterialLib::get_material_by_id", "src/core/material_lib.hpp:MaterialLib::get_index_by_id", "src/util/file_scrubber.cpp:FileScrubber::getline"]}
{"id": "C98", "title": "pins and maps by identifier", "statement": "A <pin> is accepted if and only if it has an identifier other than zero, the identifier of a pin mesh that exists, and as many materials as that mesh has regions, all of which exist. It is fuel as its attribute says, and without the attribute if and only if one of its materials is fissile. The tags of pin meshes, pins, lattices and assemblies are accepted if and only if each of them is and their identifiers differ; each identifier then stands for the object of its tag and all others for none.", "quantifier": "for all lists of tags, all pin meshes and all material libraries", "why_tests_cant": "Inputs in tests name existing materials and use each identifier once.", "anchors": ["src/core/pin.cpp:Pin::Pin", "src/core/pin.cpp:ParsePins", "src/core/pin_mesh.cpp:ParsePinMeshes", "src/core/lattice.cpp:ParseLattices", "src/core/assembly.cpp:ParseAssemblies"]}
{"id": "C99", "title": "assemblies", "statement": "An <assembly> is accepted if and only if it has an identifier, a number of planes, heights given once, and as many lattices as planes, all known and compatible with the lowest. Text is read from the top: the last lattice, height and group are those of the bottom. Its macroplanes together have all planes, its numbers of regions are the sums over its lattices, and every plane has a positive height. Two assemblies are compatible if and only if they have the same planes, macroplanes and heights, which is a transitive relation.", "quantifier": "for all tags, all lattices, all heights and divisions into macroplanes", "why_tests_cant": "Assemblies in tests are mostly of one plane or have equal planes, so that reversed orders do not show, and heights of all assemblies are the same text.", "anchors": ["src/core/assembly.cpp:Assembly::Assembly", "src/core/assembly.cpp:Assembly::compatible"]}
{"id": "C100", "title": "the core from its assemblies", "statement": "A <core> is accepted if and only if its dimensions are positive, its boundary conditions are vacuum, reflect or prescribed, and it names as many assemblies as it has places, all known and compatible with the one in the lower left corner. The first row of the text is the uppermost. The numbers of pins and the boundaries between assemblies are the partial sums over the bottom row and the left column. Of several <core> tags exactly one must be enabled, and the others are ignored. No tag leads to undefined behaviour.", "quantifier": "for all tags, all dimensions that an int can have, all assemblies", "why_tests_cant": "Tests have small positive dimensions; products of dimensions that wrap around in 32 bits cannot be tried in tests of usual size.", "anchors": ["src/core/core.cpp:Core::Core", "src/core/core.cpp:ParseCore", "src/core/core.cpp:bc_parse", "src/core/lattice.cpp:Lattice::Lattice"]}
{"id": "C101", "title": "pin powers", "statement": "The array of pin powers has at the place of every pin and macroplane the kappa-fission power of the regions of this pin, times one factor common to all pins; the factor is such that the powers sum to the number of elements of the array. In an Sn sweeper each cell is an element, the sum is that of the elements with power, and the two-dimensional powers are those summed over the planes. The number of fuel pins is the largest of those of the planes. Both ways of normalising agree for one macroplane in which the pins with power are the fuel pins.", "quantifier": "for all cross-section meshes, fluxes, volumes, divisions into macroplanes, numbers of regions per pin and placements of pins", "why_tests_cant": "A region counted for the neighbouring pin or a pin read from another plane of a macroplane changes powers only for cores whose pins differ; the normalisation is only seen with several planes.", "anchors": ["src/core/transport_sweeper.cpp:TransportSweeper::pin_powers", "src/sweepers/sn/sn_sweeper.cpp:SnSweeper::pin_powers", "src/sweepers/sn/sn_sweeper.cpp:SnSweeper::pin_powers_2d", "src/core/core_mesh.hpp:CoreMesh::n_fuel_2d"]}
{"id": "C102", "title": "total fission, fission source and residual of the flux", "statement": "total_fission is the nu-fission rate integrated over all regions and groups. calc_fission_source gives each region its nu-fission rate divided by k, so that total_fission is k times the integral of the fission source. The square of flux_residual is the sum of squares of the differences between flux and old flux over all regions and groups, is zero if and only if the fluxes are equal, and is the same if they are exchanged.", "quantifier": "for all cross-section meshes whose regions are a partition, all numbers of groups, fluxes, volumes and k", "why_tests_cant": "An omitted group or a region counted twice changes an eigenvalue only in a small part of its digits.", "anchors": ["src/core/transport_sweeper.cpp:TransportSweeper::total_fission", "src/core/transport_sweeper.cpp:TransportSweeper::calc_fission_source", "src/core/transport_sweeper.cpp:TransportSweeper::flux_residual"]}
{"id": "C103", "title": "zeroing of coarse data", "statement": "zero_data sets current and surface flux of the group to zero on all surfaces of the coarse mesh, and the partial currents if and only if asked; zero_data_radial does so on exactly the surfaces normal to X or Y, which are the lateral faces of all cells. Other groups and other surfaces keep their values, and no access is out of range.", "quantifier": "for all sizes of the mesh, all groups and all contents of the arrays", "why_tests_cant": "Values that are left over from a previous iteration are overwritten by the sweepers in most tests.", "anchors": ["src/core/coarse_data.cpp:CoarseData::zero_data", "src/core/coarse_data.cpp:CoarseData::zero_data_radial", "src/core/coarse_data.cpp:CoarseData::CoarseData"]}
{"id": "C104", "title": "the 2D3D sweep", "statement": "In every outer iteration each group is processed in the order: transverse leakage if enabled, in a V cycle an Sn sweep and projection to MoC, the MoC sweep if the number of the iteration is at least inactive_moc and a multiple of moc_modulo, projection to Sn if enabled, the Sn sweep, projection to MoC if enabled, residual. The residual compares the macroplane averages of both. Negative Sn fluxes are replaced and the iteration goes on; projection to Sn gives macroplane averages equal to those of MoC. Without coarse data the sweep throws. No combination of options leads to undefined behaviour.", "quantifier": "for all options, numbers of outer iterations and groups, all divisions into macroplanes, and all sweeps of MoC and Sn", "why_tests_cant": "The schedule depends on a counter over outer iterations that tests of few iterations do not exercise; projections are off by default.", "anchors": ["src/sweepers/cmdo/plane_sweeper_2d3d.cpp:PlaneSweeper_2D3D::sweep", "src/sweepers/cmdo/plane_sweeper_2d3d.cpp:PlaneSweeper_2D3D::parse_options", "src/sweepers/sn/sn_sweeper.hpp:SnSweeper::set_pin_flux_1g"]}
{"id": "C105", "title": "options of sweepers and solvers", "statement": "The factories make of a tag exactly what its attributes name and throw for all other values: solvers by type, sources with P0 scattering, sweepers by type, Sn sweepers by equation and axial treatment, with the number of inner iterations, the boundary update and the angular quadrature of the nearest enclosing tag that has one. Factories that call each other end. Unknown attributes lead to one warning each and nothing else. Case and surrounding spaces of values do not matter, a value means the same wherever it is accepted, and the examples of the manual are accepted.", "quantifier": "for all attributes and values, all nestings of tags and numbers of threads", "why_tests_cant": "Tests use a few combinations of lower-case values; the mutual calls of the Sn factories depend on combinations that they do not contain.", "anchors": ["src/solvers/solver_factory.cpp:SolverFactory", "src/sweepers/transport_sweeper_factory.cpp:TransportSweeperFactory", "src/sweepers/sn_sweeper_factory.cpp:SnSweeperFactory", "src/sweepers/cmdo/sn_sweeper_factory_cdd.cpp:SnSweeperFactory_CDD", "src/core/source_factory.cpp:SourceFactory", "src/core/transport_sweeper.cpp:find_angquad", "src/util/validate_input.cpp:validate_input", "src/util/string_utils.hpp:sanitize", "src/sweepers/sn/sn_sweeper.cpp:SnSweeper::SnSweeper", "src/sweepers/moc/moc_sweeper.cpp:MoCSweeper::MoCSweeper"]}
{"id": "C106", "title": "points and surfaces of the coarse mesh", "statement": "coarse_surf_point names no surface for a point inside of a cell, the one surface of the cells on both sides for a point on a grid line, and at a corner of the grid the surfaces on the way between the cell asked for and the one diagonally opposite, or the outside; all cells at a corner on the outside have the same outer surface. It has a result for every cell and corner, in terms of the bottom plane, whatever the plane of the cell. coarse_cell_point gives a cell that the point is in or on the boundary of, for every point of the mesh.", "quantifier": "for all sizes of the mesh, all positions of grid lines, all points and cells", "why_tests_cant": "Tests ask at a few points of one mesh; corners of the mesh and points on its lower sides are not among them.", "anchors": ["src/core/mesh.cpp:Mesh::coarse_surf_point", "src/core/mesh.cpp:Mesh::coarse_cell_point", "src/core/mesh.hpp:Mesh::coarse_surf", "src/core/mesh.hpp:Mesh::coarse_neighbor"]}
{"id": "C107", "title": "source of the 2D3D sweeper and error of the fission source", "statement": "The fission source of the 2D3D sweeper holds the values of the Sn sweeper and then those of the MoC sweeper, and the source of each of the two is that of its own cross sections, flux and external source. The error of the fission source in an eigenvalue calculation is zero if and only if the fission source is a multiple of the previous one.", "quantifier": "for all numbers of regions and groups, all cross sections and fluxes, all pairs of fission sources", "why_tests_cant": "An array that is compared in part only makes a calculation stop a few iterations early, which tolerances of tests allow.", "anchors": ["src/sweepers/cmdo/source_2d3d.hpp:Source_2D3D", "src/sweepers/cmdo/plane_sweeper_2d3d.hpp:PlaneSweeper_2D3D::calc_fission_source", "src/sweepers/cmdo/plane_sweeper_2d3d.hpp:PlaneSweeper_2D3D::n_reg", "src/sweepers/cmdo/plane_sweeper_2d3d.hpp:PlaneSweeper_2D3D::create_source", "src/solvers/eigen_solver.cpp:EigenSolver::solve", "src/solvers/fixed_source_solver.cpp:FixedSourceSolver::step"]}
{"id": "C108", "title": "the solution of the infinite medium is a fixed point", "statement": "If every material of the core has the same solution of the infinite medium (k and one flux per group with collisions equal to fission neutrons plus scattering) and no face is vacuum, then outer iterations that start from it leave k, the flux in all regions and the incoming boundary values unchanged, with MoC and with Sn, whatever the rays, the mesh, the angular quadrature with weights that add up, the number of inner iterations, the kind of boundary update and the outgoing boundary values, which are not initialised.  The Sn schemes reproduce a uniform flux in cells of any size.", "quantifier": "for all numbers of groups, regions, planes, angles, rays, cells, inner and outer iterations; all materials; both kinds of boundary update", "why_tests_cant": "Tests run one infinite-medium case with tolerances; errors in a group, a face or an ordinate that are absent in it go unnoticed, and a fixed point is not seen in an iteration that is stopped by a tolerance.", "anchors": ["src/solvers/eigen_solver.cpp:EigenSolver::step", "src/solvers/fixed_source_solver.cpp:FixedSourceSolver::step", "src/sweepers/moc/moc_sweeper.cpp:MoCSweeper::sweep", "src/sweepers/sn/sn_sweeper_variant.hpp:SnSweeperVariant::sweep", "src/sweepers/sn/sn_sweeper_variant.hpp:SnSweeperVariant::sweep_1g", "src/core/boundary_condition.cpp:BoundaryCondition::update", "src/sweepers/sn/sn_sweeper_dd.hpp:SnSweeper_DD::evaluate", "src/sweepers/cmdo/sn_sweeper_cdd.hpp:SnSweeper_CDD_DD::evaluate", "src/sweepers/cmdo/sn_sweeper_cdd_mb.hpp:SnSweeper_CDD_PMB::evaluate"]}
{"id": "C109", "title": "fluxes and k stay non-negative", "statement": "With cross sections, fission spectrum and starting values that are not negative (transport cross sections and volumes positive), no outer iteration makes the flux of a region negative or lets k become negative, and k is positive as long as there is fission in the flux. With MoC this needs tracks that do not cover more than the volume of a region (C33) and holds for all kinds of boundary conditions and both kinds of boundary update; incoming boundary values stay non-negative too. With Sn it holds whatever scheme, ordinates and boundary values, since each sweep of a group ends by replacing negative fluxes by zero, and only those.", "quantifier": "for all numbers of groups, regions, planes, angles, rays, cells, inner and outer iterations; all non-negative materials, starting fluxes and boundary values", "why_tests_cant": "A negative flux that appears after many iterations in one region of one group is not looked at by tests, which compare k and normalised pin powers.", "anchors": ["src/solvers/eigen_solver.cpp:EigenSolver::step", "src/solvers/fixed_source_solver.cpp:FixedSourceSolver::step", "src/sweepers/moc/moc_sweeper.cpp:MoCSweeper::sweep", "src/sweepers/moc/moc_sweeper_kernel.inc.hpp:MoCSweeper::sweep1g", "src/sweepers/sn/sn_sweeper_variant.hpp:SnSweeperVariant::sweep", "src/core/source_isotropic.cpp:SourceIsotropic::self_scatter", "src/core/boundary_condition.cpp:BoundaryCondition::update"]}
{"id": "C110", "title": "neutron balance of a converged calculation", "statement": "In every inner iteration of MoC or Sn, collisions of the new flux plus the weighted outgoing minus incoming boundary values are equal to the source plus self-scattering of the old flux, summed over volumes. If an outer iteration with one inner iteration leaves the flux as it is (with Sn: a positive flux), k is left as it is too and is neutron production divided by absorption plus the leakage of all groups. If all faces are reflective, mirrored angles have equal weights, the boundary update is of the Jacobi kind and the incoming values are unchanged, there is no leakage: k is production divided by absorption. The Sn schemes keep the balance of a cell for all positive correction factors.", "quantifier": "for all numbers of groups, regions, planes, angles, rays and cells, all materials with positive transport cross sections and spectra that sum to one, all exponential functions in MoC, all states", "why_tests_cant": "Tests compare k with reference values within tolerances and do not evaluate production, absorption and leakage of a converged state; a region or group that is missing in one of the sums shifts k by less than these.", "anchors": ["src/solvers/eigen_solver.cpp:EigenSolver::step", "src/solvers/fixed_source_solver.cpp:FixedSourceSolver::step", "src/sweepers/moc/moc_sweeper.cpp:MoCSweeper::sweep", "src/sweepers/moc/moc_sweeper_kernel.inc.hpp:MoCSweeper::sweep1g", "src/sweepers/sn/sn_sweeper_variant.hpp:SnSweeperVariant::sweep_1g", "src/core/boundary_condition.cpp:BoundaryCondition::update", "src/core/transport_sweeper.cpp:TransportSweeper::total_fission", "src/core/transport_sweeper.cpp:TransportSweeper::calc_fission_source"]}
{"id": "C111", "title": "superposition and scaling", "statement": "Sweeps are linear: the result for a sum of multiples of two sources and two states is the sum of the same multiples of the two results, for a sweep of a group and a whole fixed-source step of MoC, and for inner iterations of Sn with every scheme that has no fix-up of negative fluxes. Outer iterations of the eigenvalue calculation do not depend on the magnitude of the flux: from a multiple of a state (with Sn: a positive multiple, fix-ups included) all eigenvalues are the same and all states the same multiple. The update of boundary conditions treats all values alike: each one is kept, set to zero or copied, whatever the values.", "quantifier": "for all numbers of groups, regions, planes, angles, rays, cells, inner and outer iterations; all materials, sources, states and factors; all boundary conditions and both kinds of boundary update", "why_tests_cant": "A test compares two runs at most for one factor; a constant in place of a flux (a floor, a threshold, a missing factor) in one branch shows only for states that reach it.", "anchors": ["src/solvers/eigen_solver.cpp:EigenSolver::step", "src/solvers/fixed_source_solver.cpp:FixedSourceSolver::step", "src/sweepers/moc/moc_sweeper.cpp:MoCSweeper::sweep", "src/sweepers/moc/moc_sweeper_kernel.inc.hpp:MoCSweeper::sweep1g", "src/sweepers/sn/sn_sweeper_variant.hpp:SnSweeperVariant::sweep", "src/sweepers/sn/sn_sweeper_variant.hpp:SnSweeperVariant::sweep_1g", "src/core/source_isotropic.cpp:SourceIsotropic::self_scatter", "src/core/boundary_condition.cpp:BoundaryCondition::update", "src/sweepers/sn/sn_sweeper_dd.hpp:SnSweeper_DD::evaluate", "src/sweepers/cmdo/sn_sweeper_cdd.hpp:SnSweeper_CDD_DD::evaluate", "src/sweepers/cmdo/sn_sweeper_cdd_mb.hpp:SnSweeper_CDD_PMB::evaluate"]}
{"id": "C112", "title": "order and bounds of the flux", "statement": "A fixed-source step with a larger external source (an eigenvalue step with a larger fission source), from a larger flux and larger incoming boundary values, ends with a larger flux and larger incoming values in all regions, groups and slots. If a flux per group would, were it uniform, lose in every material at least as many neutrons by collisions as the source and scattering supply, then the computed flux never exceeds it in any region and the incoming values never exceed it per unit solid angle, provided they do not at the start. This holds with vacuum, reflective and prescribed faces and with both kinds of boundary update.", "quantifier": "for all numbers of groups, regions, planes, angles, rays, inner iterations (at least one) and steps; all non-negative materials, all sources and starts; MoC", "why_tests_cant": "A test sees one source and one start; the order of two results and bounds for all of them are not observable in one run.", "anchors": ["src/solvers/fixed_source_solver.cpp:FixedSourceSolver::solve", "src/solvers/fixed_source_solver.cpp:FixedSourceSolver::step", "src/sweepers/moc/moc_sweeper.cpp:MoCSweeper::sweep", "src/sweepers/moc/moc_sweeper_kernel.inc.hpp:MoCSweeper::sweep1g", "src/core/source.cpp:Source::initialize_group", "src/core/source.cpp:Source::in_scatter", "src/core/source_isotropic.cpp:SourceIsotropic::self_scatter", "src/core/boundary_condition.cpp:BoundaryCondition::update"]}
{"id": "C113", "title": "convergence of the fixed-source iteration", "statement": "If scattering returns at most a part rho < 1 of the collisions of some positive flux per group in every material, every ray lets at most a part eta < 1 pass, and faces are vacuum or reflective, then there is exactly one flux with incoming boundary values that a step of the fixed-source solver leaves as it is, and the steps approach it from every start: the largest deviation shrinks at least by the factor rho + (1 - rho) eta in every two steps, with any number of inner iterations and both kinds of boundary update.", "quantifier": "for all numbers of groups, regions, planes, angles, rays, inner iterations (at least one) and steps; all non-negative materials, external sources and starts; MoC", "why_tests_cant": "A run shows that one iteration ends within a tolerance, not that it would from all starts, nor that the limit does not depend on the start.", "anchors": ["src/solvers/fixed_source_solver.cpp:FixedSourceSolver::solve", "src/solvers/fixed_source_solver.cpp:FixedSourceSolver::step", "src/sweepers/moc/moc_sweeper.cpp:MoCSweeper::sweep", "src/sweepers/moc/moc_sweeper_kernel.inc.hpp:MoCSweeper::sweep1g", "src/core/source.cpp:Source::in_scatter", "src/core/source_isotropic.cpp:SourceIsotropic::self_scatter", "src/core/boundary_condition.cpp:BoundaryCondition::update"]}
{"id": "C114", "title": "arrays in output files", "statement": "Writing a vector or an array to a file stores exactly its values with its extents under the given name, changes nothing else, and throws if the name is in use; reading it back into an empty array or one of the same extents gives the same extents and values. Writing with extents given separately stores the values with these extents, or throws or stops if their product is not the number of values. Reading into an array that has elements fills it with the values of a dataset of the same extents (one-dimensional arrays: of as many values) or throws.", "quantifier": "for all files, names, extents of any number of dimensions, values and arrays", "why_tests_cant": "Tests write and read a few arrays with matching extents; extents that do not fit give a file or an array with wrong values, or an access out of bounds that need not show.", "anchors": ["src/util/h5file.cpp:H5Node::write", "src/util/h5file.cpp:H5Node::read", "src/util/h5file.cpp:H5Node::read_1d", "src/util/h5file.hpp:H5Node::write", "src/util/h5file.hpp:H5Node::read"]}
{"id": "C115", "title": "contents of the output file", "statement": "Each solver with each sweeper and all options writes its output in full: no name is used twice, every group exists before something is written to it, the source of a link exists before the link, and the extents of every dataset have as many elements as values are handed over. Names with numbers are different for different groups, whatever the number of groups. Each group has one dataset of pin fluxes with extents planes by rows by columns, numbered from one, and groups are numbered from one everywhere in the file.", "quantifier": "for all numbers of groups, angles, pins, planes, macroplanes, regions and iterations; MoC, Sn with and without corrections, 2D3D plane sweeper and 2D3D MoC; fixed source, eigenvalue with and without CMFD, and Monte Carlo", "why_tests_cant": "Output is written when a run ends; a clash of names or a size that does not fit for some combination of sweeper and options loses the results of the run. Tests run few combinations, and more than 999 groups none.", "anchors": ["src/driver.cpp:generate_output", "src/solvers/eigen_solver.cpp:EigenSolver::output", "src/solvers/fixed_source_solver.cpp:FixedSourceSolver::output", "src/solvers/monte_carlo_eigenvalue_solver.cpp:MonteCarloEigenvalueSolver::output", "src/sweepers/mc/particle_pusher.cpp:ParticlePusher::output", "src/core/cmfd.cpp:CMFD::output", "src/sweepers/moc/moc_sweeper.cpp:MoCSweeper::output", "src/sweepers/sn/sn_sweeper.cpp:SnSweeper::output", "src/sweepers/cmdo/sn_sweeper_cdd.hpp:SnSweeper_CDD::output", "src/sweepers/cmdo/plane_sweeper_2d3d.cpp:PlaneSweeper_2D3D::output", "src/sweepers/cmdo/moc_sweeper_2d3d.cpp:MoCSweeper_2D3D::output", "src/sweepers/cmdo/correction_data.cpp:CorrectionData::output", "src/core/xs_mesh_homogenized.cpp:XSMeshHomogenized::output", "src/core/angular_quadrature.cpp:AngularQuadrature::output"]}
{"id": "C116", "title": "CMFD keeps a converged Sn solution", "statement": "If an outer iteration of the three-dimensional Sn sweeper leaves a positive flux and the eigenvalue as they were, then the currents it has recorded balance with the flux in every cell and group, the flux solves the CMFD system of every group, and a CMFD solve after it (EigenSolver::do_cmfd) changes neither the eigenvalue, nor the flux, nor the currents, whatever the couplings between cells, the tolerances and the number of CMFD iterations. So a solution repeated by steps without CMFD is repeated by steps with CMFD.", "quantifier": "for all meshes, materials, group structures, quadratures, boundary updates, differencing schemes that keep the cell balance, linear solvers that return a guess that solves the system; one inner iteration, every plane a macroplane, each group with a source somewhere", "why_tests_cant": "It ties together currents of the sweep, removal cross sections, source assembly, matrix assembly and the projections; a wrong sign or factor in any of them shifts the converged eigenvalue a little, in a way that depends on mesh and tolerance and that a regression test takes for the reference.", "anchors": ["src/solvers/eigen_solver.cpp:EigenSolver::step", "src/solvers/eigen_solver.cpp:EigenSolver::do_cmfd", "src/core/cmfd.cpp:CMFD::solve", "src/core/cmfd.cpp:CMFD::solve_1g", "src/core/cmfd.cpp:CMFD::residual", "src/sweepers/sn/sn_sweeper_variant.hpp:SnSweeperVariant::sweep", "src/sweepers/sn/sn_sweeper.hpp:SnSweeper::set_pin_flux_1g"]}
{"id": "C117", "title": "MoC currents balance with the flux in every coarse cell", "statement": "After a MoC sweep of a group with currents, in every coarse cell the net current out of the cell, taken as CMFD takes it (current density times area of its six faces), plus the collisions in the flat-source regions of the cell (cross section times volume times the flux the sweep returns) equals the source in these regions, if currents were zero before. Axial currents are left as they were. Each ray by itself leaves the sum of what flows out of a cell and what its regions gain unchanged, in its own plane and in all others.", "quantifier": "for all meshes, numbers of regions, planes, angles, rays and segments, all cross sections, sources, incoming boundary values, exponential functions and both kinds of boundary update; rays laid out from boundary to boundary with fewer than 256 segments in a cell and all points recognised (C74, C75), each segment in a region of the cell it passes, one plane to a macroplane, one thread", "why_tests_cant": "The currents and the flux are made by different code with different weights, indices and directions; a wrong segment count, index or weight on one kind of ray changes one cell by a little, and CMFD then converges to a slightly different solution.", "anchors": ["src/sweepers/moc/moc_sweeper_kernel.inc.hpp:MoCSweeper::sweep1g", "src/sweepers/moc/moc_current_worker.hpp:Current::post_ray", "src/sweepers/moc/moc_current_worker.hpp:Current::set_angle", "src/sweepers/moc/moc_current_worker.hpp:Current::post_sweep", "src/sweepers/moc/ray.cpp:Ray::Ray", "src/core/mesh.hpp:Mesh::coarse_area"]}
{"id": "C118", "title": "CMFD keeps a converged MoC solution", "statement": "If an outer iteration of the MoC sweeper leaves a positive flux and the eigenvalue as they were, then removal and source of every pin with the cross sections homogenised for CMFD are the sums over the regions of the pin, the flux of the pins with the currents of the sweep solves the CMFD system of every group, and a CMFD solve after it changes neither the eigenvalue nor the flux of any region. So a solution repeated by steps without CMFD is repeated by steps with CMFD.", "quantifier": "for all meshes, pins, materials, group structures, rays as in C117, boundary updates, exponential functions, CMFD couplings and tolerances, linear solvers that return a guess that solves the system; one inner iteration, one plane to a macroplane, each group with a source somewhere", "why_tests_cant": "The fixed point of the accelerated iteration is compared with that of the iteration without acceleration. The difference appears only in problems with several planes and different flux in them, and looks like a discretisation error.", "anchors": ["src/solvers/eigen_solver.cpp:EigenSolver::step", "src/solvers/eigen_solver.cpp:EigenSolver::do_cmfd", "src/core/cmfd.cpp:CMFD::solve", "src/core/cmfd.cpp:CMFD::setup_solve", "src/core/cmfd.cpp:CMFD::store_currents", "src/core/xs_mesh_homogenized.cpp:XSMeshHomogenized::update", "src/sweepers/moc/moc_sweeper.cpp:MoCSweeper::sweep", "src/sweepers/moc/moc_sweeper.cpp:MoCSweeper::get_pin_flux_1g", "src/sweepers/moc/moc_sweeper.cpp:MoCSweeper::set_pin_flux_1g", "src/core/coarse_data.hpp:CoarseData::zero_data_radial"]}
{"id": "C119", "title": "The eigenvalue of a converged MoC solution is unique, largest and monotone", "statement": "If an outer iteration of the MoC sweeper leaves flux and incoming boundary values as they were and the flux is positive, the eigenvalue is the same for all such solutions, whatever flux, boundary values and eigenvalue the iteration started from. No converged solution with a flux that is nowhere negative has a larger one. More fission, fission spectrum or scattering in any material, with the same transport cross sections, makes it no smaller. If a uniform flux would not make more neutrons than it uses up in any material with an eigenvalue, the converged eigenvalue is at most that one, whatever leaks out. A converged solution whose fission source is nowhere negative has no negative flux.", "quantifier": "for all meshes, materials, group structures with up-scattering or without, rays, planes, numbers of inner iterations, exponential functions and both kinds of boundary update; scattering takes away a part of the collisions and every ray attenuates (as in C113)", "why_tests_cant": "A test compares an eigenvalue with a number. That no other start leads to another eigenvalue, and that a change of a cross section moves it in the right direction by any amount in any geometry, is a statement about all starts and all data.", "anchors": ["src/solvers/eigen_solver.cpp:EigenSolver::step", "src/solvers/fixed_source_solver.cpp:FixedSourceSolver::step", "src/sweepers/moc/moc_sweeper.cpp:MoCSweeper::sweep", "src/sweepers/moc/moc_sweeper_kernel.inc.hpp:MoCSweeper::sweep1g", "src/core/source_isotropic.cpp:SourceIsotropic::self_scatter", "src/core/source.cpp:Source::in_scatter", "src/core/source.cpp:Source::fission", "src/core/transport_sweeper.cpp:TransportSweeper::calc_fission_source"]}
{"id": "C120", "title": "The initial source of Monte Carlo is in the box and uses its own random numbers", "statement": "The Monte Carlo solver is made from exactly those inputs that have a fission box with all six bounds in order, an odd seed (or none) and numbers of cycles, inactive cycles and particles that are there and not negative; every other input is reported as an exception of the program. The source then has as many sites as particles, numbered from zero, inside of the box and in one of the groups. Each site uses six numbers of the generator, each of them once. The source depends on the input only, not on the compiler, and its random numbers are not used again by the histories. Asking for rejection of sites without fission gives the same sites and a warning.", "quantifier": "for all inputs, numbers of groups and orders in which a compiler evaluates arguments, which may differ from site to site", "why_tests_cant": "A test runs one compiler and looks at a few sites. That another order of evaluation gives another source, that a missing number of particles ends the program with an exception nobody catches, and that histories use the numbers of the source again is not visible in a result.", "anchors": ["src/sweepers/mc/fission_bank.cpp:FissionBank::FissionBank", "src/solvers/monte_carlo_eigenvalue_solver.cpp:MonteCarloEigenvalueSolver::MonteCarloEigenvalueSolver", "src/util/rng_lcg.hpp:RNG_LCG", "src/sweepers/mc/particle_pusher.cpp:ParticlePusher::simulate"]}
{"id": "C121", "title": "expected scores of a Monte Carlo flight and collision", "statement": "With random numbers uniform between zero and one, a flight in a region with transport cross section S that ends at distance D ahead collides with probability 1 - exp(-S D), and on average scores the same with the track-length estimator and the collision estimator: of k, and of the flux of every group and region. A collision banks on average w nu-fission / S particles, which is what the collision estimator of k scores; the particle goes on in group j with the probability of the scattering to j over S. Each banked particle is in group j with the probability of the fission spectrum. New directions are uniform on the sphere, whatever the order in which the compiler evaluates the two arguments: all three components vanish on average, their squares are 1/3 and products of two vanish.", "quantifier": "for all cross sections with positive total, scattering plus fission at most the total, spectra that sum to one, weights, positions, directions, distances and all values of the other random numbers, all above zero", "why_tests_cant": "Averages over random numbers are seen by tests through noise; a bias of a part in a thousand of one estimator, one group or one direction cosine is within it.", "anchors": ["src/sweepers/mc/particle_pusher.cpp:ParticlePusher::collide", "src/sweepers/mc/particle_pusher.cpp:ParticlePusher::simulate", "src/core/xs_mesh_region.hpp:XSMeshRegion::reaction_cdf", "src/core/xs_mesh_region.hpp:XSMeshRegion::chi_cdf", "src/core/scattering_matrix.hpp:ScatteringMatrix::out_cdf", "src/core/geometry/direction.hpp:Direction::Isotropic"]}
{"id": "C122", "title": "CMFD systems have one solution, and what the accelerated iteration repeats is a solution", "statement": "The CMFD system of a group, made from positive flux and removal and from the currents of the sweep, has exactly one solution for every source, and a source that is nowhere negative gives a flux that is nowhere negative. A state that a step with CMFD repeats (eigenvalue, flux and currents) with its CMFD systems solved is repeated by the step without CMFD with the same eigenvalue, and CMFD has returned the flux of the sweep.", "quantifier": "for all meshes, widths, couplings, removal cross sections, flux and currents; the second part for all materials, group structures, quadratures, boundary updates and differencing schemes of three-dimensional Sn that keep the cell balance, one inner iteration, every plane a macroplane", "why_tests_cant": "Acceleration that converges to something else than the transport solution, or a system that is singular for some currents, needs particular currents; a test has those of its few problems. That every repeated state is a solution is a statement about states no test reaches.", "anchors": ["src/core/cmfd.cpp:CMFD::setup_solve", "src/core/cmfd.cpp:CMFD::solve", "src/core/cmfd.cpp:CMFD::solve_1g", "src/solvers/eigen_solver.cpp:EigenSolver::step", "src/solvers/eigen_solver.cpp:EigenSolver::do_cmfd", "src/sweepers/sn/sn_sweeper_variant.hpp:SnSweeperVariant::sweep"]}
{"id": "C123", "title": "options and tables of the ray data; warning about regions without rays", "statement": "RayData accepts exactly nodes with a positive spacing, known words for volume correction, modularity and modularization, and pin modularity for meshes of equal pitch only; it throws for all others, and unknown attributes only give a warning. The tables of ray counts and spacings have one entry for each direction of four octants, that of the direction with the same number in the first octant, and with pin modularity counts are those of a module times the number of modules. Each angle whose rays miss a region is warned about.", "quantifier": "for all nodes, meshes, numbers of directions, planes, regions, angles and rays", "why_tests_cant": "The warning has to be checked for combinations of rays and regions that a test would have to construct; a missed region loses part of its volume without an error.", "anchors": ["src/sweepers/moc/ray_data.cpp:RayData::RayData", "src/core/core_mesh.hpp:CoreMesh::is_pin_modular", "src/util/validate_input.cpp:validate_input"]}
{"id": "C124", "title": "macroplane tables of the MoC sweeper fit the mesh and its boundary conditions fit the rays", "statement": "For every specification of macroplanes that the mesh accepts, the region numbers that the MoC sweep uses for macroplane k are those of the regions of its lowest plane in the list of volumes, each region belongs to exactly one macroplane and all together are the regions of the treatment PLANE. The cell offset used for the correction factors of a macroplane is the number of the first cell of its lowest plane. The boundary conditions have for each direction of four octants one value for each ray, those on x-normal faces first; with them the update of all directions and the update after one direction are defined and set exactly the values of the mirrored directions.", "quantifier": "for all numbers and sizes of macroplanes, geometries, pins, numbers of cells, directions and rays of a direction (at least one on each side), groups and boundary conditions among vacuum, reflecting and prescribed", "why_tests_cant": "Tests have one or two macroplanes of one size. An offset that is wrong for macroplanes of different sizes reads values of another plane without an error.", "anchors": ["src/sweepers/moc/moc_sweeper.cpp:bc_size_helper", "src/sweepers/moc/moc_sweeper.cpp:MoCSweeper::MoCSweeper", "src/sweepers/cmdo/correction_worker.hpp:CurrentCorrections::CurrentCorrections", "src/sweepers/cmdo/correction_worker.hpp:CurrentCorrections::set_plane", "src/core/boundary_condition.cpp:BoundaryCondition::update"]}
{"id": "C125", "title": "The CMFD power iteration converges", "statement": "Without up-scattering, with cells coupled to their neighbours more strongly than they are corrected and a linear solver that solves, the CMFD systems have a solution with positive flux; its eigenvalue is the only one that has a flux which is nowhere negative, and the flux is determined up to a factor. The iterations of CMFD tend to it, from every flux that is nowhere negative and has some fission and from every positive eigenvalue; the sum of the fission source does not change, which fixes the factor. Flux and eigenvalue are positive from the first iteration on. With positive tolerances, an initial residual that is not zero and enough iterations allowed, solve ends with all three criteria met, after a number of iterations that does not depend on the limit.", "quantifier": "for all meshes, widths, couplings, currents, materials with positive removal and cross sections that are not negative, and numbers of groups, where some cell has fission and every group is fed by fission in all cells with fission or by scattering from a group above; exact real arithmetic", "why_tests_cant": "A test sees a run that converges. That no start, mesh or material leads to another limit, to a flux that changes sign or to a run that never meets its criteria is a statement about limits of infinitely many iterations.", "anchors": ["src/core/cmfd.cpp:CMFD::solve", "src/core/cmfd.cpp:CMFD::solve_1g", "src/core/cmfd.cpp:CMFD::fission_source", "src/core/cmfd.cpp:CMFD::total_fission", "src/core/cmfd.cpp:CMFD::setup_solve", "src/core/cmfd.cpp:CMFD::residual"]}
{"id": "C126", "title": "timers show the time between starts and stops, and a run starts and stops each in turn", "statement": "A timer shows the sum of the times from each tic to the toc after it, and toc returns the time since tic. new_timer returns a timer without time, which runs if it is to be started. In every run that ends normally each timer is started and stopped in turn, all are stopped when they are printed, none shows more than the time of the whole run, and none less than a timer below it. The function run can be called again.", "quantifier": "for all sequences of calls of new_timer, tic and toc and all clocks; for all sweepers with or without CMFD, numbers of sweeps and solutions of CMFD", "why_tests_cant": "Times differ from run to run, so tests do not compare them. A toc that is missing on one path shows up as an assertion in a debug build only, in a release build as a wrong time.", "anchors": ["src/util/timers.cpp:Timer::tic", "src/util/timers.cpp:Timer::toc", "src/util/timers.cpp:Timer::time", "src/util/timers.cpp:Timer::print", "src/util/timers.hpp:Timer::new_timer", "src/input_proc.cpp:InputProcessor::process", "src/driver.cpp:run", "src/core/cmfd.cpp:CMFD::solve", "src/sweepers/moc/moc_sweeper.cpp:MoCSweeper::sweep", "src/sweepers/sn/sn_sweeper_variant.hpp:SnSweeperVariant::sweep"]}
{"id": "C127", "title": "what is written to LogScreen is seen on the screen and in the log file; warnings are given once and counted", "statement": "Everything written to LogScreen appears on the screen, and in the log file from StartLogFile on, whether the log file can be opened or not. Each warning is written when it comes first, and counted each time. At the end screen and log file get the same list: how many warnings there were, and each with the number of times it came.", "quantifier": "for all sequences of outputs and warnings, names, and both results of opening the file", "why_tests_cant": "Tests run where the log file can be written. Without it everything after the first character is lost on the screen, which no check of results sees.", "anchors": ["src/util/tee_stream.hpp:basic_teebuf::overflow", "src/util/tee_stream.hpp:TeeStream::reset", "src/util/files.cpp:StartLogFile", "src/util/error.cpp:Warn", "src/driver.cpp:generate_output"]}
{"id": "C128", "title": "Monte Carlo sampling tables in doubles select a group and a reaction that exist", "statement": "Computed in double precision, the cumulative tables of outgoing groups, reactions and fission spectrum do not decrease, and the entry they end with is close to one. For every random number the generator returns, the group sampled from the table of outgoing groups and the one sampled from the fission spectrum is a group of the library, the reaction sampled is scattering, fission or capture, and one whose cross section is zero is not sampled.", "quantifier": "for all scattering tables with non-negative entries, numbers of groups, cross sections and spectra, all random numbers in [0, 1]; any monotone rounding for the order of the tables, IEEE double precision for the rest", "why_tests_cant": "The sampling goes wrong for one random number in 2^63 or for cross sections whose sum is rounded the wrong way; no test of finite length draws it, yet every seed reaches it (C03).", "anchors": ["src/core/scattering_matrix.hpp:ScatteringMatrix::out_cdf", "src/core/xs_mesh_region.hpp:XSMeshRegion::reaction_cdf", "src/core/xs_mesh_region.hpp:XSMeshRegion::chi_cdf", "src/core/material.cpp:Material::Material", "src/sweepers/mc/particle_pusher.cpp:ParticlePusher::collide", "src/util/rng_lcg.hpp:RNG_LCG::sample_cdf"]}
{"id": "C129", "title": "the MoC sweep in doubles: exponential table, angular flux and scalar flux", "statement": "Computed in double precision, with an exponential of the library that is exact to one unit in the last place, the table of the MoC sweeper is read only inside its array for every negative argument and gives values between zero and one. With sources that are not negative no angular flux at a boundary is negative after a sweep, a segment does not raise the angular flux above the larger of the incoming flux and the source over the cross section, and no scalar flux is negative.", "quantifier": "for all arguments, cross sections, sources, incoming fluxes, rays, angles and planes; any monotone rounding for the sign of the angular flux, IEEE double precision with rounding to nearest for the rest", "why_tests_cant": "The arguments that read outside the table are those with an optical thickness below 1e-15, and the element read is next to the table, so that nothing is seen. That all others stay inside needs all 10^19 doubles.", "anchors": ["src/core/exponential.hpp:Exponential_Linear::Exponential_Linear", "src/core/exponential.hpp:Exponential_Linear::exp", "src/sweepers/moc/moc_sweeper_kernel.inc.hpp:MoCSweeper::sweep1g"]}
{"id": "C130", "title": "random numbers and tallies in doubles", "statement": "Computed in double precision, random(ubound) is in [0, ubound) and random(lbound, ubound) in [lbound, ubound), random_int(ubound) is in 0 to ubound - 1, and the polar angle of an isotropic direction is the arc cosine of a number in [-1, 1]. The mean of a tally of k lies between the least and the greatest score; its relative deviation is a number when there are two or more positive scores.", "quantifier": "for all bounds that are doubles, all random numbers in [0, 1], all sequences of up to 2^52 positive scores; any monotone rounding for the lower bounds, IEEE double precision with rounding to nearest for the rest", "why_tests_cant": "A number equal to the upper bound, or a variance that is negative by rounding, comes for rare values only, and the tests of tallies use values that are exact in binary.", "anchors": ["src/util/rng_lcg.hpp:RNG_LCG::random", "src/util/rng_lcg.hpp:RNG_LCG::random_int", "src/core/geometry/direction.hpp:Direction::Isotropic", "src/sweepers/mc/tally_scalar.hpp:TallyScalar::get", "src/solvers/monte_carlo_eigenvalue_solver.cpp:MonteCarloEigenvalueSolver::step"]}
{"id": "C131", "title": "parallel sweeps and particle histories have no data race", "statement": "In the parallel regions of the MoC sweep, the Sn sweep and the Monte Carlo cycle no two threads access the same memory without an order between the accesses, unless both only read: rays of a direction write different boundary slots, currents, tallies, fission sites and the scalar flux are written in critical sections or atomically, and the boundary update after each direction of the Sn sweep is off when there is more than one thread.", "quantifier": "for all numbers of threads, all assignments of rays, directions, particles and single blocks to threads, all numbers of planes, directions, rays and surfaces; MoC with rays that share no slot at the same end (C32) and a reverse direction that is another one", "why_tests_cant": "A race shows in few interleavings, and the values are the same in most; tests run on one thread.", "anchors": ["src/sweepers/moc/moc_sweeper_kernel.inc.hpp:MoCSweeper::sweep1g", "src/sweepers/moc/moc_current_worker.hpp:Current::set_plane", "src/sweepers/cmdo/correction_worker.hpp:CurrentCorrections::set_angle", "src/sweepers/sn/sn_sweeper_variant.hpp:SnSweeperVariant::sweep_1g", "src/sweepers/sn/sn_sweeper.cpp:SnSweeper::SnSweeper", "src/sweepers/mc/particle_pusher.cpp:ParticlePusher::simulate", "src/sweepers/mc/fission_bank.hpp:FissionBank::push_back"]}
{"id": "C132", "title": "the drawing of the geometry shows the regions of the plane at their places", "statement": "The program that geometry_output writes for a plane draws the boundaries between pins over the whole core, and within every pin, at the place of the pin, the boundaries between its regions (grid lines of rectangular pins, rings and lines between sectors of cylindrical ones), on a page of 720 by 720 with the y axis upwards, and nothing else; a plane that does not exist is an error.", "quantifier": "for all cores, planes, numbers, sizes and divisions of pins and all points of the page", "why_tests_cant": "The output is a program for another library; the tests have one small square core and do not run it.", "anchors": ["src/auxiliary/geometry_output.cpp:output_geometry", "src/core/pin_mesh_cyl.cpp:PinMesh_Cyl::draw", "src/core/pin_mesh_rect.cpp:PinMesh_Rect::draw", "src/core/core_mesh.cpp:CoreMesh::CoreMesh", "src/core/core_mesh.cpp:CoreMesh::pin_origin"]}
{"id": "C133", "title": "surface fluxes of the three current workers", "statement": "The surface flux that a sweep leaves for CMFD is the integral of the angular flux over directions: each direction adds its angular flux at a surface times the weight of the direction (MoC: times the width of the ray), with either sense along a ray. The MoC sweep with correction factors tallies the same currents and surface fluxes as the MoC sweep without. In a flat isotropic field the surface flux of three-dimensional Sn is the scalar flux, and the first update of the incoming flux from it leaves the incoming angular flux as it is.", "quantifier": "for all meshes, planes, rays on them, angular fluxes, directions with no component zero, weights and spacings; for the last part all sets of directions whose weights add up to 4 pi and all diffusion coefficients", "why_tests_cant": "No test compares the surface fluxes of two sweepers, and an iteration that converges hides a wrong first guess of the incoming flux.", "anchors": ["src/sweepers/moc/moc_current_worker.hpp:Current::post_ray", "src/sweepers/moc/moc_current_worker.hpp:Current::set_angle", "src/sweepers/cmdo/correction_worker.hpp:CurrentCorrections::post_ray", "src/sweepers/sn/sn_current_worker.hpp:Current::upwind_work", "src/sweepers/sn/sn_current_worker.hpp:Current::current_work", "src/core/cmfd.cpp:CMFD::setup_solve", "src/core/cmfd.cpp:CMFD::store_currents", "src/sweepers/sn/sn_sweeper.cpp:SnSweeper::update_incoming_flux"]}
{"id": "C134", "title": "index arithmetic of the coarse mesh and of the boundary values fits the integer types", "statement": "With the integer types of the code (int of 32 bits whose overflow is undefined, size_t of 64 bits that wraps) the counts, offsets, cell numbers, positions, surface tables, normals and neighbours of the coarse mesh are those in unbounded integers, without overflow, for every mesh whose surfaces can be numbered by an int. The store of boundary values has the number of values and offsets, and each face the position, computed in unbounded integers, if the values of one group can be counted by an int.", "quantifier": "for all meshes, cells, positions, planes and surfaces; all sizes of faces, directions, groups, angles and normals", "why_tests_cant": "The limits are at about 360 million cells or 2 billion boundary values; a test of such a size is not run, and the overflow goes unseen until it is.", "anchors": ["src/core/mesh.hpp:Mesh::n_surf", "src/core/mesh.hpp:Mesh::coarse_cell", "src/core/mesh.hpp:Mesh::coarse_position", "src/core/mesh.hpp:Mesh::coarse_surf", "src/core/mesh.hpp:Mesh::coarse_neigh_cells", "src/core/mesh.hpp:Mesh::surface_normal", "src/core/mesh.cpp:Mesh::prepare_surfaces", "src/core/boundary_condition.cpp:BoundaryCondition::BoundaryCondition", "src/core/boundary_condition.hpp:BoundaryCondition::get_face"]}
{"id": "C135", "title": "errors end a run with a status that is not zero and with their message on the screen and in the log", "statement": "If anything throws in the course of a run, the program ends with status 1, the text of the exception is on standard error and, once the log file has been opened, at the end of the log, with the texts of the exceptions that caused it; what was written before is kept. Without an exception the status is 0.", "quantifier": "for all parts of a run (reading the input, mesh, solver, geometry output, solution, output) and all that they do with respect to errors: exceptions of the program, of the standard library and of HDF5, handlers, parallel regions; all identifiers in lattices and core maps, names of materials and boundary conditions", "why_tests_cant": "Tests check that single functions throw; where the exception ends, and what of it is shown, depends on all handlers on its way, and in a parallel region on OpenMP.", "anchors": ["src/util/error.cpp:Exception::Exception", "src/util/error.cpp:Fail", "src/driver.cpp:run", "src/input_proc.cpp:InputProcessor::process", "src/solvers/fixed_source_solver.cpp:FixedSourceSolver::FixedSourceSolver", "src/util/h5file.cpp:H5Node::H5Node", "src/core/lattice.cpp:Lattice::Lattice", "src/core/core.cpp:Core::Core", "src/core/material_lib.cpp:MaterialLib::assignID", "src/sweepers/mc/particle_pusher.cpp:ParticlePusher::simulate", "src/sweepers/cmdo/sn_sweeper_cdd.hpp:SnSweeper_CDD::SnSweeper_CDD", "src/core/boundary_condition.cpp:BoundaryCondition::update"]}
{"id": "C136", "title": "check_balance of the sweepers reports the neutrons that are not accounted for in a cell", "statement": "After a sweep of a group, check_balance(group) reports for every coarse cell source less removal less net current out of it; this is what the scattering inside the group changed in the last inner iteration, so that it is zero for every group once the iterations leave the flux as it is. No access is out of bounds.", "quantifier": "for all meshes, materials, ordinates or rays, states, numbers of inner iterations; all orders of the regions in the cross-section mesh; with and without sub-planes; all groups", "why_tests_cant": "The function only prints; that a number on the screen is not zero is taken for lack of convergence, and the case of one group, one lattice and no sub-planes is right.", "anchors": ["src/sweepers/sn/sn_sweeper.cpp:SnSweeper::check_balance", "src/sweepers/moc/moc_sweeper.cpp:MoCSweeper::check_balance", "src/core/source.hpp:Source::operator[]", "src/core/core_mesh.cpp:CoreMesh::pin_position"]}
{"id": "C137", "title": "the file of rays is a program with the list of the rays", "statement": "With dump_rays the MoC sweeper writes rays.py: code that draws the rays of an angle, and a list with an item for every angle of the first plane, which is the list of its rays, each given by its two end points, in order. Read as Python, comments and white space apart, nothing else is in the list, in particular no separator or bracket too many.", "quantifier": "for all numbers of angles and all positive numbers of rays per angle, all end points and boundary indices, all ways of writing numbers without white space and comment signs", "why_tests_cant": "The brackets are written over separators by going back in the file; positions depend on the lengths of all numbers, and a test of one file says nothing about others.", "anchors": ["src/sweepers/moc/ray_data.cpp:operator<<", "src/sweepers/moc/ray.cpp:operator<<", "src/core/geometry/geom.cpp:operator<<", "src/sweepers/moc/moc_sweeper.cpp:MoCSweeper::MoCSweeper"]}
{"id": "C138", "title": "library read through a FileScrubber", "statement": "The two constructors of MaterialLib, from the input and from a FileScrubber, accept the same files and make the same library from them; the others they reject with an exception. A row of cross sections has four numbers and a row of the scattering table as many as there are groups.", "quantifier": "for all files (all sequences of lines), all numbers of groups and materials, all ways of reading a number", "why_tests_cant": "The library in the test is well-formed; rows that are too short or too long, or have a word in place of a number, are not tested, and uninitialised values may happen to look right.", "anchors": ["src/core/material_lib.cpp:MaterialLib::MaterialLib", "src/util/string_utils.cpp:explode_string", "src/util/file_scrubber.cpp:FileScrubber::getline"]}
{"id": "C139", "title": "mesh of CMFD with sub-planes and its surface fluxes and partial currents", "statement": "The mesh of CMFD has the columns and rows of the core and one plane per macroplane, of its height; its cells have the volume of the cells of the core they are made of. After CMFD::solve surface flux and partial currents of a radial surface of a plane are those of the macroplane of this plane: if the solution is a multiple of the flux before, all surface fluxes of the core are multiplied alike.", "quantifier": "for all cores and groupings of planes to macroplanes, all currents, surface fluxes and positive fluxes", "why_tests_cant": "Tests of CMFD have no sub-planes; with them arrays are long enough for every index, so that wrong surfaces are read and written without an error.", "anchors": ["src/core/cmfd.cpp:make_cmfd_mesh", "src/core/cmfd.cpp:CMFD::setup_solve", "src/core/cmfd.cpp:CMFD::store_currents", "src/core/coarse_data.cpp:CoarseData::CoarseData", "src/core/mesh.cpp:Mesh::Mesh"]}
{"id": "C140", "title": "what a Monte Carlo run records", "statement": "A run of the Monte Carlo solver has a source for every cycle: the initial one, then for every cycle particles_per_cycle sites banked by histories of the cycle before, numbered from zero; its histories are numbered consecutively through all cycles. Every cycle records the entropy of its source and the three estimates of the eigenvalue from its own histories only; after each active cycle mean and relative standard deviation over the active cycles so far are recorded; spatial tallies have one realisation per active cycle. All this does not depend on the threads. The run delivers these results if every cycle that is followed by another one banks sites.", "quantifier": "for all numbers of inactive and active cycles, particles, threads and ways of interleaving, all histories, all seeds", "why_tests_cant": "A test runs one input with one number of threads and compares eigenvalues within a tolerance; that tallies of inactive cycles or of the cycle before are left out is not seen in converged values, and a last cycle without fission does not happen.", "anchors": ["src/solvers/monte_carlo_eigenvalue_solver.cpp:MonteCarloEigenvalueSolver::solve", "src/solvers/monte_carlo_eigenvalue_solver.cpp:MonteCarloEigenvalueSolver::step", "src/sweepers/mc/particle_pusher.cpp:ParticlePusher::simulate", "src/sweepers/mc/particle_pusher.hpp:ParticlePusher::reset_tallies"]}
{"id": "C141", "title": "Sn cells in double precision", "statement": "In double precision the cell functions of the Sn sweepers divide by no zero and return an average that is not negative for incoming fluxes, source and cross section that are not negative, and the scheme with the fix-up no negative axial flux. Unless numbers are so small that places are lost, the average is that of exact arithmetic to within eleven half units in the last place, and the balance of the cell closes to within 16 half units of what enters and is emitted. The weight of the step characteristics lies between zero and one for every positive cross section.", "quantifier": "for all widths, directions, correction factors, fluxes, sources and cross sections; the first part for every monotone rounding; for every exponential of the library within one unit in the last place", "why_tests_cant": "Tests use cells of ordinary optical thickness; for thin cells the weight of the step characteristics loses its digits as the square of the thickness, and fluxes are wrong or negative without any message.", "anchors": ["src/sweepers/sn/sn_sweeper_dd.hpp:SnSweeper_DD::evaluate", "src/sweepers/sn/sn_sweeper_dd.hpp:SnSweeper_DD_SC::evaluate", "src/sweepers/cmdo/sn_sweeper_cdd.hpp:SnSweeper_CDD_DD_FF::evaluate", "src/sweepers/cmdo/sn_sweeper_cdd.hpp:SnSweeper_CDD_SC::evaluate"]}
{"id": "C142", "title": "Source, fission source and eigenvalue in double precision", "statement": "In double-precision arithmetic, with data, volumes and fluxes that are not negative: the multigroup source of a region, the source handed to a sweep, the fission source and the total fission are not negative, and neither is the eigenvalue or a flux after any number of outer iterations whose fixed-source steps keep fluxes from being negative. Where no product underflows, the source of a group differs from the one the data define by at most ng + 1 half units in the last place (relative), the source handed to a sweep by ng + 5, the fission source by ng + 4, the total fission over n regions by ng n + 3 and the eigenvalue by 2 ng n + 7. The total fission over the eigenvalue, which exact power iteration keeps constant, drifts by at most 2 ng n + 6 half units per outer iteration. A flux that the fixed-source step gives back is left as it is, with its eigenvalue.", "quantifier": "All materials, numbers of groups and regions (ng n up to 2^24), fluxes, volumes, eigenvalues, fixed-source steps and numbers of outer iterations; signs for every monotone rounding, errors for binary64.", "why_tests_cant": "Convergence tolerances hide errors of single roundings; whether they add up over groups, regions and iterations does not show in a short run.", "anchors": ["src/core/source.cpp:Source::fission", "src/core/source.cpp:Source::in_scatter", "src/core/source_isotropic.cpp:SourceIsotropic::self_scatter", "src/core/transport_sweeper.cpp:TransportSweeper::total_fission", "src/core/transport_sweeper.cpp:TransportSweeper::calc_fission_source", "src/solvers/eigen_solver.cpp:EigenSolver::step"]}
{"id": "C143", "title": "what convergence of the eigenvalue solver means", "statement": "The number of fissile regions of the eigenvalue solver is the number of mesh regions whose material has nu-fission in some group. With positive fluxes, the error of the fission source of an outer iteration is the root mean square, over the fissile regions, of the change of the fission source relative to its average over these regions. When solve() says that the convergence criteria are satisfied, the eigenvalue changed by less than its tolerance in the last iteration, the root mean square is less than its tolerance, and the change in every region less than the tolerance times the square root of the number of fissile regions. With fissile material and sweeps that keep fluxes positive the eigenvalue is always a positive number; without fissile material the solver gives up with an exception after the first iteration. A flux that the fixed-source step reproduces up to a factor c is recognised: c is the eigenvalue from the first iteration on, and the solver converges in the second iteration at the latest once the minimum of iterations is over. The same holds of the error for the 2D3D sweeper and its MoC regions.", "quantifier": "All materials, meshes, cross-section regions, fluxes, fixed-source steps (a different one in each iteration), tolerances, limits and dump requests.", "why_tests_cant": "That a run converges does not show what the printed error measures; tests compare the eigenvalue.", "anchors": ["src/solvers/eigen_solver.cpp:EigenSolver::EigenSolver", "src/solvers/eigen_solver.cpp:EigenSolver::solve", "src/solvers/eigen_solver.cpp:EigenSolver::step", "src/util/utils.hpp:Normalize"]}
{"id": "C144", "title": "quadratures of the 2D3D sweeper, boundary values and correction factors", "statement": "After construction of the 2D3D sweeper everything that is indexed by angle - directions, boundary values and correction factors of the Sn sweeper - has as many entries as initialisation, MoC sweep and Sn sweep access. One MoC sweep computes the correction factors of each in-plane direction of its quadrature exactly once, and every Sn angle, above and below the plane, uses factors that were computed for its own in-plane direction.", "quantifier": "All quadratures of the Sn sweeper, the MoC sweeper and the data file, with and without preserve_sn_quadrature, two and three dimensions, both kinds of boundary update.", "why_tests_cant": "Test inputs give both sweepers the same quadrature; with different numbers of angles memory next to the arrays is read and written, which may give plausible numbers.", "anchors": ["src/sweepers/cmdo/plane_sweeper_2d3d.cpp:PlaneSweeper_2D3D::PlaneSweeper_2D3D", "src/sweepers/cmdo/sn_sweeper_cdd.hpp:SnSweeper_CDD::SnSweeper_CDD", "src/sweepers/cmdo/sn_sweeper_factory_cdd.cpp:SnSweeperFactory_CDD", "src/sweepers/cmdo/correction_worker.cpp:CurrentCorrections::calculate_corrections", "src/sweepers/sn/sn_sweeper_variant.hpp:SnSweeperVariant::sweep_1g", "src/core/boundary_condition.cpp:BoundaryCondition::update"]}
{"id": "C145", "title": "the corrected Sn sweep reproduces a MoC sweep of the plane", "statement": "Let the MoC sweep of a plane leave its correction factors, with tracks corrected to the areas of the regions, and let the Sn sweep of the plane start from boundary values that are the averages of the MoC fluxes on the boundary, with the area average of the MoC source of each pin and its flux-weighted cross section. Then, without iteration, the angular fluxes that the Sn sweep passes from pin to pin and to the far boundary are the averages of the MoC fluxes on the faces, in each direction the collisions of each pin are those of MoC, and the scalar flux of each pin is the area average of the MoC scalar fluxes of its regions.", "quantifier": "All planes, numbers and sizes of pins, regions, rays, directions, weights, cross sections, sources and incoming fluxes, and every approximation of the exponential function; all four quadrants of directions.", "why_tests_cant": "Tests of 2D3D compare eigenvalues after many iterations, within tolerances that hide a factor of one pin or direction taken from another; the test problems have square pins.", "anchors": ["src/sweepers/cmdo/correction_worker.hpp:CurrentCorrections::post_ray", "src/sweepers/cmdo/correction_worker.cpp:CurrentCorrections::calculate_corrections", "src/sweepers/cmdo/sn_sweeper_cdd.hpp:SnSweeper_CDD::evaluate_2d", "src/sweepers/sn/sn_sweeper_variant.hpp:SnSweeperVariant::sweep_1g_2d", "src/sweepers/moc/moc_sweeper_kernel.inc.hpp:MoCSweeper::sweep1g"]}
{"id": "C146", "title": "a converged MoC solution is repeated by the Sn iteration coupled to it", "statement": "If the MoC solution of a plane of the 2D3D sweeper is converged (source and fluxes of its regions belong together, with the eigenvalue) and the Sn sweeper has the pin averages of its flux and the averages of its boundary values, an outer iteration of the Sn sweeper, with the cross sections homogenised by the MoC flux and the correction factors of each group, leaves the Sn flux of every pin and group, the boundary values and the eigenvalue as they are, for any number of inner iterations and outer iterations; the MoC/Sn residual of every group is zero.", "quantifier": "All planes, numbers of pins, regions, groups, directions, rays and inner iterations, all materials, positive MoC fluxes and eigenvalues, both kinds of boundary update, every boundary condition that turns the averages that leave into those that enter.", "why_tests_cant": "Runs stop at tolerances and print a residual that is never exactly zero; whether what is left is an error of the coupling does not show.", "anchors": ["src/sweepers/cmdo/plane_sweeper_2d3d.cpp:PlaneSweeper_2D3D::sweep", "src/sweepers/sn/sn_sweeper_variant.hpp:SnSweeperVariant::sweep", "src/sweepers/cmdo/sn_sweeper_cdd.hpp:SnSweeper_CDD::evaluate_2d", "src/core/xs_mesh_homogenized.cpp:XSMeshHomogenized::update", "src/solvers/eigen_solver.cpp:EigenSolver::step"]}
{"id": "C147", "title": "inner iterations and correction factors of the MoC part of the 2D3D sweeper", "statement": "A sweep of a group by the MoC part of the 2D3D sweeper throws without coarse data. Otherwise it leaves the fluxes that the plain MoC sweeper leaves with the same number of inner iterations. In the last inner iteration only, after the self-scatter, it wipes the radial currents, homogenises the cross sections of the Sn sweeper and collects the factors, which replace those of the group in every direction and pin visited; all others stay. One residual for each kind of factor is recorded, the root of the sum of squares of the changes, which is zero exactly if no factor of the kind changed. In the Sn sweep that follows, the factor beta of a pin and direction times the cross section of the pin is the cross section that MoC has there, collisions over flux.", "quantifier": "All numbers of inner iterations, groups, pins, regions, directions, fluxes, cross sections and sources; all states of the MoC sweeper.", "why_tests_cant": "The mismatch of factors and cross sections disappears as the iteration converges, and no output shows the cross section with which a factor was made.", "anchors": ["src/sweepers/cmdo/moc_sweeper_2d3d.cpp:MoCSweeper_2D3D::sweep", "src/sweepers/cmdo/correction_worker.cpp:CurrentCorrections::calculate_corrections", "src/core/xs_mesh_homogenized.cpp:XSMeshHomogenized::update", "src/sweepers/sn/sn_sweeper_variant.hpp:SnSweeperVariant::sweep"]}
{"id": "C148", "title": "whole Monte Carlo histories in a uniform medium without leakage", "statement": "In a core of one material with reflective boundaries, the probability that a history goes on after n passes of the loop falls geometrically with n. Averaged over the random numbers of the whole history, the track-length estimator of k, the collision estimator of k and the number of banked particles are the same for a particle of weight one of any group, and for particles with the fission spectrum they are the k of the infinite medium; both flux tallies of a group, summed over regions, are the same, and with the fission spectrum they are the flux of the infinite medium, normalised to one source particle. After any finite number of passes no average is above these values, and scores plus what the particle is still worth are conserved exactly.", "quantifier": "All numbers of groups, cross sections with positive totals and less scattering than the total in each group, numbers of regions, states of the particle, meshes on which passes are defined.", "why_tests_cant": "A Monte Carlo test compares within its own standard deviation; a bias of an estimator that is smaller than that passes, and a bias that all estimators share is not seen by comparing them.", "anchors": ["src/sweepers/mc/particle_pusher.cpp:ParticlePusher::simulate", "src/sweepers/mc/particle_pusher.cpp:ParticlePusher::collide", "src/sweepers/mc/particle_pusher.hpp:ParticlePusher::k_tally_tl"]}
{"id": "C149", "title": "cross-section meshes of the sweeper and of CMFD share their tables", "statement": "CMFD works on a copy of the homogenised cross-section mesh of the sweeper. At any time, in each of the two meshes, the removal cross section of a region is its transport cross section less the self-scatter of its scattering matrix; ExpandedXS::expand gives the transport cross sections that its mesh has at the time; the sources of a group are made with the scattering matrices that the sweep of the group uses. Each Sn sweep, each set of correction factors and each solution of CMFD uses cross sections homogenised with the flux of one time.", "quantifier": "All numbers of regions and groups, all homogenised data, all sequences of changes of the flux, updates of either mesh and expansions, with and without a flux for weighting, with and without V cycle and MoC sweep.", "why_tests_cant": "The meshes share arrays through copied pointers while matrices and counters are copied by value; the differences vanish as the iteration converges, and every test that constructs one mesh only sees none.", "anchors": ["src/core/xs_mesh_homogenized.cpp:XSMeshHomogenized::update", "src/core/xs_mesh_homogenized.cpp:XSMeshHomogenized::XSMeshHomogenized", "src/core/xs_mesh_region.hpp:XSMeshRegion::update", "src/core/xs_mesh.hpp:ExpandedXS::expand", "src/core/cmfd.cpp:CMFD::solve", "src/sweepers/cmdo/plane_sweeper_2d3d.cpp:PlaneSweeper_2D3D::sweep"]}
{"id": "C150", "title": "homogenised cross sections are averages of the materials of the pin", "statement": "For a flux that is not negative and not zero in the pin, transport, nu-fission and fission cross section of the homogenised pin, each entry of its scattering matrix and what is left of the transport cross section after all scattering lie between the smallest and the largest value among the pin's materials; the fission spectrum lies between those of the fissile materials. A pin of one material has the data of that material, whatever the flux. Only the shape of the flux counts, not its magnitude. The same bounds hold for homogenisation by volume. In double precision no homogenised value is negative; where nothing underflows, each cross section differs from the exact average of n regions by at most 2 n + 5 half units in the last place (relative), each entry of the spectrum by 2 n + 2 ng + 7; a pin of one material keeps its data, removal cross sections are not negative where no material scatters more than it collides, and all values are numbers whenever the flux is not negative and not zero.", "quantifier": "All numbers of groups, materials and regions (up to 2^24 in double precision), all data, areas and fluxes; signs for every monotone rounding, errors for binary64.", "why_tests_cant": "Tests compare an eigenvalue, which a wrong weight of one pin changes less than the tolerance; groups without flux and orders of products do not occur in them on purpose.", "anchors": ["src/core/xs_mesh_homogenized.cpp:XSMeshHomogenized::homogenize_region_flux", "src/core/xs_mesh_homogenized.cpp:XSMeshHomogenized::homogenize_region", "src/core/xs_mesh_region.hpp:XSMeshRegion::update"]}
{"id": "C151", "title": "resizing the fission bank favours no site", "statement": "FissionBank::resize(n) draws one number per site added or removed, below the number of original sites when growing and below the number of sites left when shrinking. If these draws are independent and equally likely, each site of a bank of N is represented n/N times on average, so that anything added up over the source of the next cycle is n/N times its sum over the fission sites; shrinking keeps each selection of n sites with the same probability, growing keeps all sites and appends each sequence of copies of original sites with the same probability. The same holds for the end of a cycle, with sorting and renumbering. Over one period of the generator random_int(N) returns each number below N equally often.", "quantifier": "All sizes of the bank before and after, all sites and all values added up; all states of the generator, all N.", "why_tests_cant": "A bias towards sites at the end of the bank shifts eigenvalue and source by less than the statistical error of any test; equal probabilities cannot be seen in a sample.", "anchors": ["src/sweepers/mc/fission_bank.cpp:FissionBank::resize", "src/solvers/monte_carlo_eigenvalue_solver.cpp:MonteCarloEigenvalueSolver::step", "src/util/rng_lcg.hpp:RNG_LCG::random_int"]}
{"id": "C152", "title": "CMFD in double precision repeats the transport result it was given", "statement": "In double precision: D-tilde is not negative and S-tilde lies between zero and one; their relative errors are at most 14 and 9 half units in the last place where nothing underflows; at a reflective boundary they are exactly zero and one. What the matrix takes from a cell through a surface is exactly what it gives to the neighbour, without corrections the matrix is exactly symmetric; while no correction exceeds the coupling, no element off the diagonal is positive and the diagonal is not below any of its parts. When CMFD leaves the flux unchanged, the current it stores is the current it was given, with an error of a few half units of that current, and the stored surface flux is the given one up to seven half units of the fluxes around.", "quantifier": "All currents, fluxes, cross sections and thicknesses; signs and exact statements for every monotone rounding, errors for binary64.", "why_tests_cant": "Errors of this size are invisible in the eigenvalue of any test; a current lost in a symmetric problem is zero anyway.", "anchors": ["src/core/cmfd.cpp:CMFD::setup_solve", "src/core/cmfd.cpp:CMFD::store_currents"]}
{"id": "C153", "title": "pins and points are found in double precision", "statement": "The boundaries of pins and lattices and the extents of the core are sums of pitches in double precision. They do not decrease and differ from the exact sums by at most one half unit in the last place per pin and lattice. A point that is further from the faces of its pin and plane than a small margin (about 1.8e-13 plus 4.4e-16 per pin and lattice, times one plus the extent) is located there for every direction, with the position, region and mesh of that pin, although core, plane and lattice look it up in different sums; the corners of the pin and the local point are right up to rounding. The last pin boundary is the corner of the bounding box, and every point of the box off its lower faces has a location.", "quantifier": "All pitches that are doubles and not negative, all numbers of pins, lattices and planes up to 2^26, all points and directions; order for every monotone rounding, the rest for binary64.", "why_tests_cant": "Whether sums in different orders agree depends on the last bits of the pitches; tests use one pitch and few pins, and a point in the gap of one unit in the last place is not met by chance.", "anchors": ["src/core/core_mesh.cpp:CoreMesh::CoreMesh", "src/core/core_mesh.cpp:CoreMesh::get_location_info", "src/core/plane.cpp:Plane::get_pinmesh", "src/core/lattice.cpp:Lattice::get_pinmesh", "src/core/lattice.cpp:Lattice::Lattice"]}
{"id": "C154", "title": "with one fissile region the eigenvalue iteration converges, and stops when k does", "statement": "When one region of the problem has fission (a one-region pin, or one fuel region in any surrounding), the fission source divided by k never changes during the iteration; the outer iterations of the eigenvalue solver are the outer iterations of the fixed-source solver with the source of the region as external source, and k is the ratio of fissions times the first k. There is one eigenvalue only, whatever the sign of the flux; from every start with a flux that is not negative and some fission, k and flux converge to it geometrically. The error of the fission source, the second convergence criterion, is zero after every iteration, so the calculation stops at the first iteration in which k changes by less than the tolerance; the value with which it stops is the eigenvalue.", "quantifier": "All problems with one fissile region whose scattering ratio in some weighting is below one, all meshes, rays, boundaries that drain, numbers of inner iterations and starts; the first statements for any sweeper.", "why_tests_cant": "Tests check one k to five digits; that a criterion is always met, and that k may stand still in the first iteration, needs all problems.", "anchors": ["src/solvers/eigen_solver.cpp:EigenSolver::solve", "src/solvers/eigen_solver.cpp:EigenSolver::step", "src/solvers/fixed_source_solver.cpp:FixedSourceSolver::step"]}
{"id": "C155", "title": "reciprocity: transposed data give the same eigenvalue and the same detector response", "statement": "In a MoC sweep of one group with reflective or vacuum boundaries and incoming values that have converged, the flux of one source integrated with the strength of another source is the flux of the other integrated with the first, for any rays, volumes, weights and exponential table and for both orders of updating the boundary (Jacobi and Gauss-Seidel). Therefore a converged fixed-source calculation and one with transposed scattering give the same response: the flux of each, weighted with the external source of the other and integrated over regions and groups, is the same number. And a converged eigenvalue calculation has the same k as the one where scattering is transposed and nu-fission and chi change places (the adjoint problem). The boundary update of the code is of the kind needed, for every distribution of reflection and vacuum over the sides.", "quantifier": "All geometries of rays (each end of a ray in one slot), regions, cross sections, groups, sources, quadratures of the planar kind; one inner iteration per sweep; exact arithmetic.", "why_tests_cant": "An asymmetry between the forward and backward walk along a ray, or between an angle and its mirror image, shifts the results of tests by amounts that look like discretisation error.", "anchors": ["src/sweepers/moc/moc_sweeper_kernel.inc.hpp:MoCSweeper::sweep1g", "src/core/boundary_condition.cpp:BoundaryCondition::update", "src/core/angular_quadrature.hpp:AngularQuadrature::reverse", "src/core/source.cpp:Source::in_scatter", "src/solvers/eigen_solver.cpp:EigenSolver::step"]}
{"id": "C156", "title": "reciprocity of the Sn sweepers: transposed data give the same eigenvalue and the same detector response", "statement": "For an ordinate and its opposite, swept through the same mesh with different sources, each source weighted with the flux of the other differs by products of incoming and outgoing values on the faces of the domain only; for diamond difference, step characteristics along z, and the schemes with correction factors when these are one half. With reflection or vacuum on each face and incoming values that have converged, the two weighted sums over all ordinates are equal, for both orders of updating the boundary. So converged fixed-source calculations with Sn, one with transposed scattering, give the same response, and a converged eigenvalue calculation has the same k as the one with transposed scattering and nu-fission and chi exchanged. The schemes with correction factors and the scheme with fix-up of negative fluxes do the same.", "quantifier": "All meshes, widths, sources, cross sections, groups, level-symmetric or other quadratures made by reflecting one octant, all distributions of reflection and vacuum over the faces, in two and three dimensions; one inner iteration per sweep; exact arithmetic; converged fluxes positive.", "why_tests_cant": "A scheme that treats the two directions along an axis differently gives results that converge to the right ones with the mesh; only the identity for every mesh shows it.", "anchors": ["src/sweepers/sn/sn_sweeper_variant.hpp:SnSweeperVariant::sweep_1g", "src/sweepers/sn/sn_sweeper_dd.hpp:SnSweeper_DD::evaluate", "src/sweepers/cmdo/sn_sweeper_cdd.hpp:SnSweeper_CDD_DD_FF::evaluate", "src/core/boundary_condition.cpp:BoundaryCondition::update", "src/solvers/eigen_solver.cpp:EigenSolver::step"]}
{"id": "C157", "title": "a reflected face equals the problem with its mirror image: half core and full core give the same Sn results", "statement": "Take a mesh whose east face is reflective and the mesh of twice the length in which the eastern half is the mirror image of the western one. If the incoming values of the longer mesh are those of the shorter one and their mirror images, a sweep of the longer mesh gives in every cell the angular flux of the shorter one, of the mirrored ordinate in the eastern half, and so the same scalar flux and the same outgoing values, for any cell scheme (also with correction factors, if mirrored too). Therefore a converged calculation of the shorter problem, with the data of the longer one being mirrored, gives a converged calculation of the longer one with the mirrored flux: in a fixed-source calculation with mirrored external source, and in an eigenvalue calculation with the same k. And the other way round: if a calculation of the longer problem has converged to a state that is its own mirror image, its western half is a converged calculation of the shorter problem, with the same k. The east side of the longer problem has the boundary condition of its west side; the other sides are as before.", "quantifier": "All meshes, cell widths, materials, numbers of groups, quadratures made by reflecting one octant, distributions of reflection and vacuum over the other faces, in two and three dimensions; any order of ordinates and boundary update in either; one inner iteration per sweep; exact arithmetic; converged positive fluxes.", "why_tests_cant": "A test of a quarter core against the full core compares two iterations that stop at different errors; a small error in the treatment of reflection hides in the tolerance.", "anchors": ["src/sweepers/sn/sn_sweeper_variant.hpp:SnSweeperVariant::sweep_1g", "src/core/boundary_condition.cpp:BoundaryCondition::update", "src/core/angular_quadrature.hpp:AngularQuadrature::reflect", "src/solvers/eigen_solver.cpp:EigenSolver::step", "src/solvers/fixed_source_solver.cpp:FixedSourceSolver::step"]}
{"id": "C158", "title": "the mirrored core gives the mirrored results in every iteration, Sn with Jacobi updating", "statement": "Mirror a core along one or more of its axes: cell widths, materials, correction factors and external source, and the boundary conditions of opposite sides exchanged. With Jacobi updating of the boundary values (boundary_update = jacobi) and mirrored starting values, the calculation of the mirrored core has, after every sweep, every inner and every outer iteration, the mirrored flux and the mirrored incoming values, and the same k, for any cell scheme, whether it converges or not, and whatever the order of the ordinates. So a core that is its own mirror image keeps a flux that is its own mirror image during the whole calculation. With Gauss-Seidel updating this is not so: two equal cells with reflection on all sides get different fluxes from a flat start after one iteration.", "quantifier": "All meshes, widths, materials, groups, quadratures made by reflecting one octant, distributions of reflection and vacuum, any of the mirrors along x, y, z and their combinations, in two and three dimensions, any number of inner and outer iterations; exact arithmetic.", "why_tests_cant": "The tests have few problems and compare converged values; a loop that runs one cell too far in one direction only, or faces indexed differently for one sign of a cosine, need not show there.", "anchors": ["src/sweepers/sn/sn_sweeper_variant.hpp:SnSweeperVariant::sweep_1g", "src/sweepers/sn/sn_sweeper_variant.hpp:SnSweeperVariant::sweep", "src/sweepers/sn/sn_sweeper.cpp:SnSweeper::SnSweeper", "src/core/boundary_condition.cpp:BoundaryCondition::update", "src/solvers/eigen_solver.cpp:EigenSolver::step", "src/solvers/fixed_source_solver.cpp:FixedSourceSolver::step"]}
{"id": "C159", "title": "the mirrored core gives the mirrored results in every iteration, MoC with Jacobi updating", "statement": "Mirror a core along x, y or both, and let the rays of the mirrored core be the mirrored rays, listed in any order and from either end: the same lengths through the mirrored regions, the same spacing, weights and polar sines, the ends at the mirrored places of the boundary, and the boundary conditions of opposite sides exchanged. With Jacobi updating of the boundary values (boundary_update = jacobi) and mirrored starting values, the MoC calculation of the mirrored core has, after every sweep, every inner and every outer iteration, the mirrored flux, the mirrored incoming values in each plane, and the same k, whether it converges or not and whatever function stands for the exponential. So a core that is its own mirror image keeps a flux that is its own mirror image. With Gauss-Seidel updating this is not so.", "quantifier": "All numbers of planes, angles, rays, segments, regions and groups, materials, lengths, distributions of reflection and vacuum, mirrors along x, y and both, any number of inner and outer iterations, external sources too; exact arithmetic.", "why_tests_cant": "The tests compare converged values of a few problems; an end of a ray stored in the wrong slot for one octant, or a region offset applied in one direction of the walk only, need not show there.", "anchors": ["src/sweepers/moc/moc_sweeper_kernel.inc.hpp:MoCSweeper::sweep1g", "src/sweepers/moc/moc_sweeper.cpp:MoCSweeper::sweep", "src/core/boundary_condition.cpp:BoundaryCondition::update", "src/solvers/eigen_solver.cpp:EigenSolver::step", "src/solvers/fixed_source_solver.cpp:FixedSourceSolver::step"]}
{"id": "C160", "title": "results do not depend on the unit of length", "statement": "Give the same problem in another unit of length: all lengths (widths of pins, planes and cells, ray segments, ray spacing) multiplied by c, areas and volumes accordingly, all macroscopic cross sections and the external source divided by c. Then every sweep, every inner and every outer iteration gives the same angular and scalar fluxes, and the eigenvalue calculation the same k, for MoC and for every Sn scheme, with Gauss-Seidel or Jacobi updating, whether it converges or not.", "quantifier": "All c > 0, meshes, planes, rays, groups, regions, materials (scattering of any sign), boundary conditions, correction factors, exponential functions; any number of iterations; exact arithmetic.", "why_tests_cant": "All input files of the tests use centimetres; a formula in which a length is added to an inverse length cannot be seen there, and with one value of the width it looks like another constant.", "anchors": ["src/sweepers/moc/moc_sweeper_kernel.inc.hpp:MoCSweeper::sweep1g", "src/sweepers/sn/sn_sweeper_variant.hpp:SnSweeperVariant::sweep_1g", "src/sweepers/sn/sn_sweeper_dd.hpp:SnSweeper_DD::evaluate", "src/sweepers/cmdo/sn_sweeper_cdd.hpp:SnSweeper_CDD_DD::evaluate", "src/sweepers/cmdo/sn_sweeper_cdd_mb.hpp:SnSweeper_CDD_PMB::evaluate", "src/core/source_isotropic.cpp:SourceIsotropic::self_scatter", "src/solvers/eigen_solver.cpp:EigenSolver::step", "src/core/scattering_matrix.cpp:ScatteringMatrix::ScatteringMatrix"]}
{"id": "C161", "title": "the planes of a MoC calculation do not see each other", "statement": "Without CMFD and outside the 2D3D sweeper, MoC planes are coupled by k only. In a calculation with an external source each macroplane of a core has, after every iteration, the flux and the incoming boundary values of the calculation of a core with this plane alone (same materials, rays, boundary conditions at the sides, source and starting values), whatever the other planes contain and whatever its height is. In an eigenvalue calculation this holds for each outer iteration with the same estimate of k. A core made of n planes that are alike except for their heights has after every outer iteration the k of one of these planes alone, and in each plane its flux. Both with Gauss-Seidel and with Jacobi updating.", "quantifier": "All numbers of planes, heights, angles, rays, segments, regions, groups, materials, boundary updates and exponential functions; any number of inner and outer iterations; exact arithmetic.", "why_tests_cant": "The tests have few cores with several planes, mostly accelerated by CMFD; an offset of regions or boundary values taken from the neighbouring plane, or a height missing in a weight, does not show with one plane or with equal heights.", "anchors": ["src/sweepers/moc/moc_sweeper_kernel.inc.hpp:MoCSweeper::sweep1g", "src/sweepers/moc/moc_sweeper.cpp:MoCSweeper::sweep", "src/sweepers/moc/moc_sweeper.cpp:MoCSweeper::MoCSweeper", "src/core/core_mesh.hpp:CoreMesh::volumes", "src/core/transport_sweeper.cpp:TransportSweeper::total_fission", "src/solvers/eigen_solver.cpp:EigenSolver::step", "src/solvers/fixed_source_solver.cpp:FixedSourceSolver::step"]}
{"id": "C162", "title": "results depend on the cross sections of each region only", "statement": "How the regions of a core are divided among materials does not matter. Listing the materials in another order, giving one material two names and using the first in some regions and the second in the others, declaring materials that are used nowhere, or changing fission cross sections (as opposed to nu-fission) or data of groups that do not exist, leaves every number of a MoC or Sn calculation as it is: sources, angular and scalar fluxes, boundary values and k after every sweep and every iteration, with Gauss-Seidel or Jacobi updating, for eigenvalue and external-source calculations.", "quantifier": "All cores, meshes, rays, ordinates, schemes, groups, boundary updates, materials with non-negative scattering, divisions of the regions among materials; any number of iterations; exact arithmetic.", "why_tests_cant": "The tests use each material under one name; code that took data by the position of the material in a list instead of by region would agree with it for the one order in the input file.", "anchors": ["src/core/xs_mesh.cpp:XSMesh::XSMesh", "src/core/source.cpp:Source::in_scatter", "src/core/source.cpp:Source::fission", "src/core/source_isotropic.cpp:SourceIsotropic::self_scatter", "src/core/transport_sweeper.cpp:TransportSweeper::calc_fission_source", "src/core/transport_sweeper.cpp:TransportSweeper::total_fission", "src/sweepers/moc/moc_sweeper.cpp:MoCSweeper::sweep", "src/sweepers/sn/sn_sweeper_variant.hpp:SnSweeperVariant::sweep"]}
{"id": "C163", "title": "k is proportional to the yield of fission", "statement": "Multiply the nu-fission cross sections of all materials and groups by a and all fission spectra by b (both not zero), and the first estimate of k by a b. Then every outer iteration of the eigenvalue calculation gives the same angular and scalar fluxes and boundary values and a k that is a b times as large, for MoC and Sn with every scheme, with Gauss-Seidel or Jacobi updating. In particular spectra that add up to b instead of one make k wrong by the factor b, and dividing the yields by a k that the iteration repeats gives a core whose k is one with the same flux.", "quantifier": "All factors that are not zero, cores, meshes, rays, ordinates, schemes, groups, materials (any signs, regions given in any way), boundary updates, first estimates and states; any number of iterations; exact arithmetic.", "why_tests_cant": "The tests use libraries with normalised spectra and compare k with a fixed number; a nu-fission cross section used in one of the two places where k and the source are computed, but not in the other, cancels in some of them.", "anchors": ["src/core/transport_sweeper.cpp:TransportSweeper::calc_fission_source", "src/core/transport_sweeper.cpp:TransportSweeper::total_fission", "src/core/source.cpp:Source::fission", "src/solvers/eigen_solver.cpp:EigenSolver::step", "src/sweepers/moc/moc_sweeper.cpp:MoCSweeper::sweep", "src/sweepers/sn/sn_sweeper_variant.hpp:SnSweeperVariant::sweep"]}
{"id": "C164", "title": "Without scattering upwards the first groups do not see the others", "statement": "Take two libraries with any numbers of groups that agree in the cross sections of the first G groups and in which no neutrons are scattered from later groups into these G. Then MoC and Sn calculations with external sources that agree in the first G groups, started from states with the same fluxes and incoming boundary values in these groups, give the same fluxes in them after every step of the fixed-source solver, whatever the later groups hold: cross sections, sources, fluxes, incoming values and outgoing values left over from them. In particular the library can be cut after group G.", "quantifier": "All numbers of groups, cores with cross sections that are not negative and positive transport cross sections, meshes with positive volumes, with Gauss-Seidel or Jacobi updating, external sources and states (any signs); any number of inner iterations and steps; exact arithmetic. MoC: any function in place of the exponential, any weights and lengths, sets of rays whose ends fill the slots of the boundary conditions of all angles, the boundary update of the code with every kind of condition or any other linear one that leaves zeros when all is zero. Sn: every scheme, the boundary update of the code with every kind of condition, all ordinates swept in any order.", "why_tests_cant": "A test has one library. Outgoing boundary values are kept in one array for all groups, and sources are built from rows of a sparse matrix whose bounds depend on the number of groups: a value left over from another group is seen only by comparing two libraries.", "anchors": ["src/core/source.cpp:Source::in_scatter", "src/core/source.cpp:Source::initialize_group", "src/core/source_isotropic.cpp:SourceIsotropic::self_scatter", "src/solvers/fixed_source_solver.cpp:FixedSourceSolver::step", "src/sweepers/moc/moc_sweeper.cpp:MoCSweeper::sweep", "src/sweepers/moc/moc_sweeper_kernel.inc.hpp:MoCSweeper::sweep1g", "src/sweepers/sn/sn_sweeper_variant.hpp:SnSweeperVariant::sweep", "src/sweepers/sn/sn_sweeper_variant.hpp:SnSweeperVariant::sweep_1g", "src/core/boundary_condition.cpp:BoundaryCondition::update"]}
{"id": "C165", "title": "Groups without fission and without scattering upwards do not change k", "statement": "Take two libraries with any numbers of groups that agree in the cross sections and spectra of the first G groups, in which the later groups have no nu-fission and scatter no neutrons into the first G. Then MoC and Sn eigenvalue calculations started with the same k from states with the same fluxes and incoming boundary values in the first G groups give the same k and the same fluxes in these groups after every outer iteration, whatever the later groups hold. In particular the library can be cut after group G.", "quantifier": "All numbers of groups, cores with cross sections that are not negative and positive transport cross sections, meshes with positive volumes, with Gauss-Seidel or Jacobi updating, first estimates of k and states (any signs); any number of inner and outer iterations; without CMFD; exact arithmetic. MoC and Sn as in C164.", "why_tests_cant": "A test has one library. An error that lets groups without fission into the source or the total of fission (wrong bounds of a loop over groups, a stale array) changes k a little, and the reference values of the tests were made by the same code.", "anchors": ["src/core/transport_sweeper.cpp:TransportSweeper::calc_fission_source", "src/core/transport_sweeper.cpp:TransportSweeper::total_fission", "src/core/source.cpp:Source::fission", "src/core/source.cpp:Source::in_scatter", "src/solvers/eigen_solver.cpp:EigenSolver::step", "src/sweepers/moc/moc_sweeper.cpp:MoCSweeper::sweep", "src/sweepers/sn/sn_sweeper_variant.hpp:SnSweeperVariant::sweep"]}
