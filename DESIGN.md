# Formal model of mocc: design

Source: youngmit/mocc, /repo at the pinned commit, read as text.  Model: Lean 4.33.0 + Mathlib,
in `lean/Verif`.  Every model definition cites the file and lines it transcribes.

## Conventions

* Integer types.  `size_t`, `unsigned`, `int` values that are array positions or sizes are `Nat`/`Int`
  (no wrap-around) unless the comment says otherwise.  Where wrap-around is observable (RNG state, the
  32-bit product in the history seed, 8-bit segment counts, unsigned decrement in point location) the
  fixed width is modelled (`BitVec`/explicit modulus).
* `real_t` (double) is an exact field element (`ℚ`, `ℝ`, or any ordered field `K`), except where a claim is about
  rounding: there each operation is followed by a rounding map (`Fp.rnd64`, or any monotone one), see the last section.
* Undefined behaviour (out-of-bounds access, null dereference, signed overflow, integer division by
  zero) and C++ exceptions are explicit outcomes (`Option`, `Except`, or a `Res` type), never a default value.
* Arrays are functions on an index type or `List`s; loops are structural recursions or folds in the order of the code.
* A property the code violates gets (a) a theorem with a concrete witness, proving the negation,
  and (b) a `_partial` theorem saying what does hold.

## Trusted base

* the Lean 4.33.0 kernel; Mathlib definitions used in statements (`ℚ`, `ℝ`, `Finset.sum`, `Real.exp`, ...);
* axioms: at most `propext`, `Classical.choice`, `Quot.sound` (printed by `Verif/Axioms.lean`);
* the transcription of C++ to Lean by hand (the comments make it checkable);
* everything listed as simplification in the comments.

Not modelled: the XML and HDF5 libraries, Blitz memory management, the OpenMP runtime (only the set of possible orders of
atomic/critical updates), the numerical linear algebra inside Eigen (BiCGSTAB; its result is a parameter with stated properties).


## Properties: what is modelled and how it is proved

Status `proved`: every theorem listed in MANIFEST.json holds as the property says.  Status `partial`: the code violates
part of the property (theorem `Cxx_claim_false` or a theorem naming the case proves it), or the theorems named `_partial` say what is missing.

* **C01** jump_ahead(n) is indistinguishable from drawing n numbers (proved; `Rng/Props.lean`). Model: RNG step and the jump loop on Nat mod 2^63. Proof: loop invariant: (g,b) is the affine map composed 2^i times. Proved for all 2^64 seeds and skip counts; also that draws are those of the documented 63-bit LCG and that jumps compose.
* **C02** the random stream has full period (proved; `Rng/Props.lean`). Model: same step. Proof: Hull–Dobell for modulus 2^63, 2-adic induction. Proved: period exactly 2^63 for every seed (Hull-Dobell by 2-adic induction).
* **C03** random() stays in [0,1) and random_int(n) in [0,n) (partial; `Rng/Props.lean`). Model: round-to-nearest-even of the state to 53 bits. Proof: negation by witness; partial below 2^63-512. Violated by the code: after rounding to double random() returns exactly 1.0 for the top 512 states, reached from every seed; then random_int(n)=n. The _partial theorems show this is the exact exception set.
* **C04** particle histories draw from disjoint parts of the random stream (partial; `Rng/Props.lean`). Model: 32-bit product of id and stride, jump. Proof: negation by two ids; partial below the wrap. Violated: (id+offset)*10000 is a 32-bit product and wraps; histories 0 and 429497 overlap, histories 2^28 apart coincide. _partial: disjoint up to the wrap.
* **C05** floating-point equivalence only equates neighbouring values (partial; `Fp/Props.lean`). Model: int64 arithmetic on bit patterns with overflow as UB. Proof: negations; partial for same-sign values. Violated: undefined behaviour (signed overflow) for -0.0 and tiny negative subnormals; 2+2^-21 and its negative compare equivalent. Exact behaviour proved for all bit patterns; fp_equiv is right wherever it is defined (its absolute test modelled with exact subtraction).
* **C06** brace lists parse to exactly the numbers written (partial; `Strings/Props.lean`). Model: character-list transcription of both parsers. Proof: negations (dropped digit, non-termination); partial grammar theorem. Violated: the character in front of an opening brace is never read (12{3} gives 1 and 3) and }{1 loops forever. _partial: exact round trip when naked text ends in white space; also proved that nothing malformed is ever accepted.
* **C07** print_range describes exactly the set of true indices (proved; `Strings/RangeProps.lean`). Model: list recursion building ranges and its text. Proof: induction; decoder of the text. Proved for every boolean vector; the description is also shown to be unique.
* **C08** rational_approximation terminates within bounds and brackets the target (partial; `Rational/ChoiceProps.lean`, `Rational/Props.lean`). Model: Stern–Brocot loop on ℚ. Proof: determinant invariant, measure b+d; negation of "closest". Violated in one clause: the result is not always the closest fraction (3/10 with denominators up to 2). Proved: bounds, tolerance met whenever possible with the least denominator, exactness, error bound, closest on its side.
* **C09** normalization preserves shape and fixes the total (proved; `Normalize/Props.lean`). Model: fold over a list. Proof: field algebra. Proved over any ordered field; undefined exactly for a zero sum. NormalizeScaled misses its documented total with a zero scale factor (proved).
* **C10** coarse cell index and position are inverse bijections (proved; `Mesh/Props.lean`). Model: index arithmetic of the coarse mesh. Proof: div/mod algebra, nonlinear arithmetic lemmas. Proved for every grid size.
* **C11** coarse surfaces are numbered without gaps or clashes (proved; `Mesh/Props.lean`). Model: index arithmetic of the coarse mesh. Proof: div/mod algebra, nonlinear arithmetic lemmas. Proved for every grid size: bijection onto 0..n_surf-1, same number iff same geometric face.
* **C12** surface neighbours are the two cells that touch the surface (proved; `Mesh/Props.lean`). Model: index arithmetic of the coarse mesh. Proof: div/mod algebra, nonlinear arithmetic lemmas. Proved for every grid size.
* **C13** surface normal and surface area agree with the face (proved; `Mesh/Props.lean`, `Mesh/WidthProps.lean`). Model: index arithmetic of the coarse mesh. Proof: div/mod algebra, nonlinear arithmetic lemmas. Proved for every grid with arbitrary divisions.
* **C14** stepping to a neighbour and asking for the interface agree (proved; `Mesh/Props.lean`). Model: index arithmetic of the coarse mesh. Proof: div/mod algebra, nonlinear arithmetic lemmas. Proved for every grid size.
* **C15** a point on the domain boundary reports every boundary it touches (partial; `Mesh/Props.lean`). Model: slot table of boundary_surface. Proof: witness at the west-south corner; partial for the rest. Violated: a particle leaving through two faces at once is reported on the first only for the pairs west/south, bottom/east and north/top (C15_corner_missed). The _partial theorem is an exact characterisation: nothing wrong is reported, at least one face is whenever the particle leaves, and only the second of such a pair is lost.
* **C16** boundary condition storage gives every value its own slot (proved; `BC/Props.lean`). Model: offset tables (prefix sums), update loop. Proof: injectivity of prefix sums; loop characterisation. Proved for every size table: positions are disjoint, fill the array exactly, and are contiguous per group and angle.
* **C17** boundary update applies the physical boundary condition (partial; `BC/UpdateProps.lean`). Model: offset tables (prefix sums), update loop. Proof: injectivity of prefix sums; loop characterisation. Violated: the loop breaks at the first empty face, so an ordinate with no X values never gets its Y values (witness proved). _partial: all size tables without such a gap, including the half-quadrature of the ray sweeper and conservation for all-reflective problems.
* **C18** reflect returns the mirrored direction (proved; `Quad/Props.lean`). Model: octant tables, to_octant. Proof: finite case split times arbitrary octant size. Proved for every octant size; also off surfaces.
* **C19** reverse returns the opposite direction (partial; `Quad/Props.lean`). Model: octant tables, to_octant. Proof: finite case split times arbitrary octant size. Violated in three dimensions: octants 3, 4, 7 and 8 are not reversed, and reverse is never an involution there; the _partial theorem is an exact characterisation. Two dimensions proved.
* **C20** the expanded quadrature is symmetric (proved; `Quad/Props.lean`). Model: octant tables, to_octant. Proof: finite case split times arbitrary octant size. Proved for every first-octant set, and for modify_angle.
* **C21** level-symmetric sets are rotation symmetric (partial; `Quad/LevelSymProps.lean`). Model: tables of GenSn. Proof: kernel decision over the full tables; negation for S12+. Violated: orders 12 and 14 use the weight map of the next order and are not symmetric; order 16 and non-positive even orders read a table out of bounds. _partial: orders 2 to 10 in full, 12 and 14 except for symmetry.
* **C22** the scattering matrix stores what it was given (partial; `Scatter/Props.lean`). Model: row bounds, column sums. Proof: list lemmas; negation for negative entries. Violated: negative entries outside the band of positive ones are dropped (witness proved; the library does not forbid them). _partial: all non-negative matrices of any size; what is lost is characterised exactly for the others.
* **C23** the outgoing-group CDF is a distribution (proved; `Scatter/Props.lean`). Model: row bounds, column sums. Proof: list lemmas; negation for negative entries. Proved for every non-negative matrix.
* **C24** each flat source region belongs to exactly one cross-section region (proved; `XS/MapProps.lean`). Model: region map built by material grouping. Proof: partition invariant. Proved for every arrangement of pins and materials, both treatments (the loops are the same).
* **C25** expanded cross sections always reflect the requested group (partial; `XS/ExpandProps.lean`). Model: state machine of ExpandedXS. Proof: negation by three-call history; partial without splitting. Violated: expand(g); expand(g, split); expand(g) leaves the split values (proved for every mesh and splitting). _partial: every history without splitting, and every history with an update after the last splitting. Overflow of the int state counter not modelled.
* **C26** flux-volume homogenisation preserves reaction rates (proved; `XS/HomogProps.lean`). Model: weighted sums over regions. Proof: field algebra, Finset sums. Proved for the flux-weighted and the volume-weighted versions, including the round trip through the sparse scattering matrix. kappa-fission is not a separate quantity in the code (xsf is the fission cross section).
* **C27** Monte Carlo reaction sampling follows the cross sections (proved; `XS/CdfProps.lean`). Model: CDF and lower_bound. Proof: list induction. Proved: monotone, ends at one, selection intervals have the right width, zero reactions not selected; also the spectrum CDF. The bisection of std::lower_bound is modelled.
* **C28** multigroup source assembly conserves neutrons (partial; `Source/Props.lean`). Model: source updates as folds over groups. Proof: sums; negation for the transposed external source and self_scatter(xstr). Violated for the external source: an accepted (group, region) array is read as (region, group) and partly out of bounds (C28_claim_false, C28_external_out_of_bounds). _partial: fission, in-scatter, self-scatter and auxiliary contributions proved for all data; in-scatter plus self-scatter conserves out-scatter.
* **C29** each Sn differencing scheme satisfies cell balance (partial; `Sn/CellProps.lean`, `Sn/ClosureProps.lean`). Model: each evaluate() as a function on a field. Proof: field_simp/ring; negation for PMB. Violated by the parabolic scheme SnSweeper_CDD_PMB except for cells of unit height; it also indexes dz outside the mesh. All other schemes proved for all inputs; step characteristics also for the real exponential.
* **C30** the Sn sweep couples each cell to its upwind neighbours (proved; `Sn/SweepProps.lean`). Model: nested loops over cells in sweep order. Proof: invariant on the face arrays; telescoping. Proved for every mesh, octant and cell scheme, in 2-D and 3-D: each cell reads exactly the outgoing face values of its upwind neighbours (or the boundary slot), the outgoing boundary slots hold the last cell values, unswept slots are untouched, and the octant-wide particle balance telescopes.
* **C31** the MoC sweep conserves neutrons along and over rays (proved; `Moc/BeamProps.lean`, `Moc/KernelProps.lean`). Model: segment loop forward and backward. Proof: telescoping; positivity by convexity. Proved over an ordered field: per-ray and per-angle attenuation, plane balance, the equilibrium solution is reproduced, and fluxes stay nonnegative. The exponential is a parameter with the property ExpOk (instantiated with Real.exp); positivity needs tracked volume at most 4 pi times the region volume (supplied by C33); boundary slots are bijective (C32).
* **C32** modular rays connect boundary slots one to one (proved; `Rays/Props.lean`). Model: diagonal rays in integer half-units. Proof: explicit exit slot; bijection. Proved for every Nx, Ny, both octants: all rays are traced, entry slots are 0..Nx+Ny-1 in order, exit slots are a permutation, and each ray runs from the middle of its entry slot to the middle of its exit slot. Exact arithmetic; fp_equiv and REAL_FUZZ are parameters assumed smaller than half a ray spacing; core smaller than 1e12.
* **C33** volume correction makes the rays reproduce region areas (proved; `Moc/VolumeProps.lean`). Model: correction of lengths. Proof: sums. Proved over any field for FLAT and ANGLE; C33_kernel connects it to the tracked-volume hypothesis of C31. FLAT needs each region crossed in each angle for equality; C33_flat_any and C33_kernel_le cover uncrossed regions.
* **C34** modularised rays are never coarser than requested (partial; `Rays/SpacingProps.lean`). Model: TRIG and RATIONAL modularisation. Proof: inequality on squares; negation for hx≠hy. TRIG proved on all domains. RATIONAL proved on square domains for slopes of at least 0.002; the full claim is refuted on a 6 by 5 domain (C34_claim_false), the angle is missed on non-square domains (C34_wrong_angle) and slopes below 0.002 convert a NaN to int (C34_flat_undefined).
* **C35** sweep results do not depend on the thread schedule (proved; `Moc/ParProps.lean`, `Sn/AngleProps.lean`). Model: interleavings of commutative updates. Proof: permutation invariance of folds. Proved: any distribution of rays over threads in any order gives the same MoC scalar flux and coarse currents in exact arithmetic, and any distribution of angles does so for the Sn sweep (Jacobi boundary, because Gauss-Seidel is disabled with more than one thread).
* **C36** setting a pin flux makes it the pin flux (partial; `PinFlux/GetProps.lean`, `PinFlux/Props.lean`). Model: get/set pin flux. Proof: sums; negations (index bug, PIN fall-through). MoC PIN_PLANE proved. MoC PIN proved only without sub-planes and refuted otherwise (the homogenised flux is overwritten by the fall-through assignment). Sn flux part proved for PIN and PIN_PLANE; residual refuted (flux_(1,group), and always 0 for PIN_PLANE); a one-region mesh reads out of bounds.
* **C37** transverse leakage is conservative and splitting keeps sources non-negative (partial; `Tl/EntryProps.lean`, `Tl/Props.lean`). Model: add_tl, splitting. Proof: telescoping; algebra. Column conservation proved for every stack of macroplanes and every relaxation factor. Splitting proved for every positive flux; a zero flux with a negative source gives an infinite added removal (C37_claim_false).
* **C38** radial currents are expanded to every plane and only there (partial; `Moc/ExpandProps.lean`). Model: in-place expansion loop. Proof: loop invariant; negation for the overrun. Radial currents proved for every sub-plane layout. Violated for axial currents of the first pin column (the copied range is one surface too long; effect characterised exactly) and for the surface flux (never expanded). C38_density: the final density carries a factor dz(macroplane index)/dz(plane).
* **C39** correction factors reproduce the MoC solution on the coarse mesh (partial; `Cmdo/CorrProps.lean`, `Cmdo/VolumeProps.lean`). Model: correction formulae + CDD cell. Proof: field algebra. Proved for square pins, starting from the MoC ray segments (no splitting); refuted for pins with dx != dy because the face averages divide by the wrong extent.
* **C40** CMFD reproduces the transport solution when nothing changes (partial; `Cmfd/Props.lean`, `Cmfd/SystemProps.lean`). Model: d_tilde, d_hat, matrix rows, partial currents. Proof: algebra, telescoping sums. Proved on every mesh without sub-planes: rows are balances, transport currents and surface fluxes are reproduced, the transport flux is a fixed point, interior currents cancel, partial currents. With sub-planes the axial current at the top of the core is replaced by zero (C40_claim_false) and interior axial surfaces get the bottom current.
* **C41** resizing the fission bank keeps only genuine sites (partial; `Mc/BankProps.lean`). Model: list operations of the fission bank. Proof: induction on list; stable sort uniqueness. Whenever resize completes the result is right for every random sequence (both directions, exact number of draws). Violated for 512 of the 2^63 generator states, reached from every seed: random_int(n) returns n and the access is one past the end; resizing an empty bank is undefined as well.
* **C42** the fission bank is independent of thread interleaving (proved; `Mc/OrderProps.lean`). Model: list operations of the fission bank. Proof: induction on list; stable sort uniqueness. Proved for every number of threads, every distribution of histories and every order of the appends, through sorting, resizing, renumbering and any number of cycles. The result of std::stable_sort is shown to be determined by its guarantee.
* **C43** Shannon entropy is within its bounds (partial; `Mc/EntropyProps.lean`). Model: entropy with bounds check. Proof: Jensen; off-by-one witness. Proved (bounds, zero iff one pin, maximal iff even) for sites not on the west, south or bottom face of the core; a site on such a face throws or is counted in another pin (C43_claim_false). The bounds test in the code is off by one (C43_guard_out_of_bounds).
* **C44** tally statistics are the sample statistics (partial; `Mc/TallyProps.lean`). Model: tallies as folds. Proof: algebra; negation for normalised spatial deviation. Mean, variance, deviation and order independence proved for the scalar tally with one score per unit weight; several scores per unit weight can give a negative variance (refuted). The relative deviation of the spatial tally is the right one times the square root of the normalisation (exact value proved; independence of the normalisation refuted).
* **C45** Monte Carlo runs the requested number of cycles (partial; `Solver/Props.lean`). Model: loop counters. Proof: induction; negations. Violated for every input: one active cycle too many is run (C45_never). The number and numbering of the inactive cycles is right.
* **C46** the eigenvalue solver respects its iteration limits and stopping rule (partial; `Solver/Props.lean`). Model: loop counters. Proof: induction; negations. Iteration limits and stopping rule proved for every convergence history. Dumps proved for positive requests without repetition; refuted otherwise (a repeated, zero or negative request blocks all later ones).
* **C47** power iteration keeps the integrated fission source (proved; `Source/Props.lean`). Model: k update. Proof: algebra. Proved for the eigenvalue step without CMFD, for every sweep result.
* **C48** macroplanes partition the axial mesh (proved; `Core/PlanesProps.lean`). Model: macroplane construction. Proof: list induction. Proved for every specification the input reader accepts (no empty block, sizes adding up to the number of planes): partition, order, heights, agreement with the bisection of the MoC sweeper, stacking order of the lattices and the same-lattice check. An empty top block would be an access out of bounds, but explode_braces rejects it.
* **C49** lattice and core maps place pins where the input draws them (partial; `Core/LatticeProps.lean`). Model: y-flip and point location. Proof: index algebra; negation at the left edge. Proved for the assembly/lattice map and for point location away from a lower face; refuted: a point on the lower face with a non-positive direction is assigned to the last pin, and on a lattice boundary the differing relative tolerances of core and lattice make Plane::at_point read past the end of the coordinates.
* **C50** the tabulated exponential is accurate and in bounds (partial; `Core/ExpProps.lean`). Model: exponential table. Proof: convexity of exp; out-of-bounds witness. Error bound proved below the upper end of the table (relative error below 1.3e-7 on [-10,0) for the table of the MoC sweeper); refuted at the upper end, where the interpolation reads one element past the table.
* **C51** command-line amendments change exactly the addressed value (proved; `Input/AmendProps.lean`). Model: tree editing. Proof: structural induction. Proved: success changes exactly one attribute or text, reached by the first child of each name; succeeds exactly when applicable; failure is before any change.
* **C52** interrupting a run always writes the output (partial; `Driver/Props.lean`). Model: driver phases and signal. Proof: negation at early phases; partial after initialisation. Proved when interrupted after the solver has been fetched and outside the output; refuted before that (null pointer) and while the output is written (file opened twice); a second run in the same process writes stale results.
* **C53** boundary values are initialised by boundary type (proved; `BC/InitProps.lean`). Model: slot tables of the boundary condition, initialisation loops. Proof: characterisation of every slot after the loops. Proved for every size table. initialize_spectrum ignores the boundary types (also vacuum faces get the spectrum), shown by an example.
* **C54** scattering matrices that compare equal are equal (partial; `Scatter/Props.lean`). Model: comparison and copying of sparse matrices. Proof: list extensionality; witness of two unequal matrices. Violated: operator== ignores the row bounds, two different 3x3 matrices compare equal. _partial: equal matrices compare equal, and matrices that compare equal have equal total outscatter; copies proved equal.
* **C55** self-scatter with given cross sections divides by them (partial; `Source/Props.lean`). Model: self-scatter of the source and its division by the transport cross section. Proof: characterisation of the loops by induction, field algebra. Violated: the given cross sections are only tested for presence; the stored transport cross section divides. _partial: when the given array equals the stored one; the relative error is characterised exactly otherwise.
* **C56** level-symmetric quadrature reproduces second and fourth moments (partial; `Quad/MomentProps.lean`). Model: tables of GenSn. Proof: even moments reduced to rational ones, which are decided by the kernel for each order. Proved for orders 4, 6, 8 (second moments also for 2 and 10); refuted: order 10 has fourth moments too small by 7e-4, orders 12 and 14 have anisotropic second moments, order 16 is undefined.
* **C57** CMFD surface results without transport data are those of diffusion (partial; `Cmfd/DiffusionProps.lean`). Model: coupling coefficients, currents and surface fluxes between cells and on sides of the mesh. Proof: field algebra. Proved between cells, on reflective sides and on vacuum sides at the high end; refuted on vacuum sides at the low end, where s_tilde takes the weight of the outside and a (usually negative) partial current enters.
* **C58** the CMFD system without corrections is symmetric and its solutions are non-negative and unique (proved; `Cmfd/DiffusionProps.lean`). Model: entries of the matrix of one group. Proof: signs and row sums, then non-negativity at the cell of least flux, uniqueness by linearity. Proved for every mesh; couplings non-negative from positive diffusion coefficients, then signs, row sums, symmetry, non-negativity and uniqueness.
* **C59** CMFD power iteration: eigenvalue, stopping rule and signs (partial; `Cmfd/LoopProps.lean`). Model: CMFD eigenvalue iteration with the linear solver a parameter. Proof: induction over iterations, telescoping. The linear solver is a parameter. Proved: telescoping of k, what an iteration does, stopping rule (with an initial residual of zero it never applies, C59_zero_residual), signs, a solution is kept. Refuted: max_iter + 1 iterations are made; the fission sums carry no cell volumes, so k is scaled by the production ratio only on uniform meshes or for unchanged shape.
* **C60** the fixed-source solver stops at the first converged iteration or at the limit and says so (partial; `Solver/FixedProps.lean`). Model: fixed-source loop with its size_t limit. Proof: induction over the iterations; wrap-around as modulus 2^64. Proved for positive limits and residuals that are numbers; refuted: max_iter_ is a size_t, so a negative or missing limit passes the check and means more than 2^63 iterations, and a last residual that is not a number suppresses the message.
* **C61** max_error bounds the relative error of the tabulated exponential (partial; `Core/ExpMaxProps.lean`). Model: table construction and max_error. Proof: monotonicity and convexity of exp. Exact value proved (cosh(dx/2) - 1, the error at the middle of every cell) and the true error is at most exp(dx) times it; refuted as a bound: every cell of every table has arguments with a larger error.
* **C62** intersection of two segments (partial; `Geom/MeetProps.lean`). Model: segment intersection by cross products. Proof: field algebra, sign cases. Sound, and complete for segments that are not parallel; order of arguments irrelevant; refuted for overlapping segments on one straight line, which give no intersection.
* **C63** intersection of a segment with a circle (partial; `Geom/CircleProps.lean`). Model: circle and segment intersection. Proof: quadratic equation over the reals. Points returned are exactly those of the circle strictly within the segment, in order; the return value counts the assignments; the condition for assert(false) is characterised; refuted: the test for tangents never succeeds so a tangent gives the same point twice, and ok is true for points never assigned.
* **C64** distance to a surface along a direction (proved; `Geom/CircleDistProps.lean`, `Geom/DistProps.lean`). Model: distance_to_surface of lines and circles. Proof: algebra; first contact by sign arguments. Proved in an ordered field (circle: over the reals) for points outside of the tolerance band; a Line is treated by the code as infinite, which is what the theorems state.
* **C65** rectangular pin mesh: regions and point location (partial; `PinMesh/RectProps.lean`). Model: constructor and find_reg of rectangular pins. Proof: list sums, bisection. Accepted input, areas and location proved; location refuted on the left and bottom edge, where the region is in the row below or -1.
* **C66** rectangular pin mesh: point location with a direction (proved; `PinMesh/RectDirProps.lean`). Model: find_reg with direction. Proof: case analysis with tolerances as parameters. Proved for points resolved by the tolerances; beyond the right or top edge moving inwards, hx_ is read past its end (undefined behaviour, stated as an outcome).
* **C67** cylindrical pin mesh: rings and areas (partial; `PinMesh/CylProps.lean`). Model: constructor of cylindrical pins. Proof: sums over rings; areas by telescoping. Proved for intended input; refuted for what is accepted: zero rings for a material loses its radius, zero or negative numbers of sectors; with six sectors the outer regions get areas that are not theirs.
* **C68** cylindrical pin mesh: point location (partial; `PinMesh/CylFindProps.lean`). Model: find_reg of cylindrical pins. Proof: bisection over radii, angles of Point2. Proved off the x axis; refuted on it: on the positive x axis the region belongs to the next ring or is n_reg, and on the negative one Point2::alpha is 3 pi.
* **C69** cylindrical pin mesh: point location with a direction (partial; `PinMesh/CylDirProps.lean`). Model: find_reg with direction. Proof: angle arithmetic over the reals. Ring proved except for tangent directions; sector proved if the angles differ by less than pi, and proved wrong in all cases where they differ by more; negative x axis and directions along the positive x axis are wrong too.
* **C70** box intersection gives the point where a ray leaves the box (partial; `Geom/BoxProps.lean`). Model: Box::intersect. Proof: field algebra per edge. Proved for starts on the left edge (mirror images alike); from the centre proved to give the point behind; towards a corner proved to give no point; claim refuted.
* **C71** tracing a ray through a rectangular pin (partial; `PinMesh/TraceProps.lean`). Model: tracing of rectangular pins. Proof: sorted points, telescoping of lengths, convexity. Length proved for upward rays and any comparison of points; pieces and regions proved for exact comparison; refuted for horizontal rays, whose points are not ordered (they do not occur: the ray angles are never 0).
* **C72** tracing a ray through a cylindrical pin (partial; `PinMesh/CylTraceProps.lean`). Model: tracing of cylindrical pins. Proof: as C71, with circles. Length proved for upward rays; pieces proved for an even number of sectors, ends outside of all rings, rays not through the centre and exact comparison; the lines of the constructor are proved complete for 2, 4 and 6 sectors and proved missing on the diagonals for 8; refuted for an end on a ring.
* **C73** dividing a ray at the boundaries of the coarse cells (partial; `Mesh/TraceProps.lean`). Model: Mesh::trace. Proof: completeness of the grid lines; sorted crossings. Proved for meshes that are not longer in y than in x; refuted for longer ones: the grid lines of constant x are given the length hx_ instead of hy_, and crossings above are not found.
* **C74** cells and surfaces along a ray (proved; `Mesh/CrossProps.lean`). Model: coarse_norm_point and coarse_boundary_cell. Proof: case analysis over octants and positions. Proved for all octants with exact recognition of grid lines; at a corner of the mesh there are two surfaces of which the first already leads out (C74_corner), which is why it is excluded.
* **C75** currents of a ray balance in every coarse cell (partial; `Moc/CoarseProps.lean`). Model: coarse ray data and current worker. Proof: net deposit of a path of pieces by induction along it, with C74 for cells and surfaces; the way back by reversal. Proved for fewer than 256 segments in every piece, also for rays through corners of cells; refuted without: the numbers of segments are kept in eight bits and MAX_NSEG is never checked. Weights of the two directions proved to be those needed.
* **C76** updating incoming fluxes from CMFD partial currents (partial; `Incoming/Props.lean`). Model: update_incoming_flux. Proof: loop characterisation: every slot once. Sn ratio update proved for every mesh and direction. Refuted: the first Sn update takes the partial current out of the mesh (sense is inverted; what it does is proved), and the MoC update passes the number of the cell where that of a surface is needed, which is the bottom surface of the cell in the lowest plane.
* **C77** currents of an Sn sweep (proved; `Sn/CurrentProps.lean`). Model: Sn current worker. Proof: each face receives exactly the two contributions of its cells, summed over the sweep; balance by algebra; induction over ordinates. Proved in three and two dimensions for every face and every balanced cell equation (balance of the cell equations themselves is C29); currents and scalar flux of the whole sweep proved to balance by induction over the ordinates. surface_flux is not part of the claim: it is the sum of angular fluxes without quadrature weights.
* **C78** directions: angles and cosines agree (proved; `Dir/Props.lean`). Model: Direction. Proof: trigonometric identities over the reals. Proved over the reals. For directions parallel to the z axis the azimuth is 0/0 and the reciprocal sine 1/0 (C78_axis).
* **C79** flight of a particle to the boundary of a pin and across it (partial; `Mc/PushProps.lean`). Model: distance_to_pin, Particle::move, crossing. Proof: order arguments; composition with C15. Distance proved for particles not on a face they move out of, and refuted there: a zero distance is replaced by the largest number. move goes further than the distance, by one to two bumps per moving coordinate. Crossing proved for all six faces away from edges of the core and between pins; refuted at edges: with two reflective sides only one is reported (C15) and the particle is left outside, alive; next to an edge the bump after a reflection pushes it out (C79_pushed_out).
* **C80** Monte Carlo collisions (partial; `Mc/CollideProps.lean`). Model: collide. Proof: cases on the sampled reaction; integrals over the random number. Proved for positive random numbers, with the mean as an integral over the random number; refuted for a random number that is exactly zero, which selects scattering also where there is none (the group is then sampled from a distribution divided by zero). Random numbers that are drawn are never used twice (positions in the stream are part of the theorems).
* **C81** tallies of a Monte Carlo history are consistent (proved; `Mc/HistoryProps.lean`). Model: simulate as a step function on the state of a history. Proof: invariants by induction over the steps. Proved by induction over the passes of the loop, with a limit on their number as the only bound and the same result for all larger limits once the history has ended (C81_ended); location of points and distances within pins are parameters.
* **C82** distance to the next surface in a pin (proved; `PinMesh/DistProps.lean`). Model: minimum over surfaces. Proof: list induction; C64; intermediate value theorem. Proved over the reals for cylindrical and any ordered field for rectangular pins, from C64 and the intermediate value theorem; the numbers of the surfaces and the sector lines (C72) are parameters. Sector lines act along their whole length, which adds no stops as sectors come in even numbers (C67_accepted).
* **C83** pins of the core and their positions (partial; `Core/PinsProps.lean`). Model: lists of lattices, pins, pitches. Proof: prefix sums, div/mod. Proved for planes whose lattices have the same number of pin columns (rows) as the others in their column (row); refuted without: only the outer dimensions of lattices are compared, and a lattice of one wide pin under one of four narrow pins is accepted with more pins than positions.
* **C84** planes of equal geometry (proved; `Core/UniqueProps.lean`). Model: search for unique planes. Proof: invariant of the loop; equivalence relation. Proved by induction over the planes; no read outside of a vector occurs.
* **C85** numbers of regions and volumes for every mesh treatment (proved; `Core/VolumesProps.lean`). Model: volumes for each treatment. Proof: list induction, prefix sums. Proved for all four treatments; that the areas of a mesh add up to the area of the pin is C65 and C67, that unique planes have the regions of the planes they stand for is C84.
* **C86** location of a point in the core (partial; `Core/WhereProps.lean`). Model: get_location_info, plane_index, get_pinmesh as called for rays. Proof: bisection; prefix sums of pitches; witnesses on interfaces. Proved for points further from the faces of their pin than the tolerance, for get_location_info and for the look-up used for rays (C86_pinmesh); plane_index also on interfaces and at bottom and top, with a read past the end above the core (C86_plane_above). Refuted on interfaces between pins: with a positive direction mesh and local point are those of the pin above, position and corners those of the pin below. On the faces x=0 and y=0 of the core the corners are read before the beginning of the vector (C86_lower_face).
* **C87** region at a point (partial; `Core/WhereProps.lean`). Model: region_at_point. Proof: witness. Refuted: the point is replaced by the origin of the pin before it is passed to find_reg; the result is proved to be the same for all points of a pin (C87_constant).
* **C88** product quadratures (partial; `Quad/GaussProps.lean`, `Quad/GaussRuleProps.lean`, `Quad/ProductProps.lean`). Model: one-dimensional rules and their product. Proof: Legendre polynomials from the recursion: derivative relations, orthogonality, Christoffel-Darboux, real simple zeros, Gauss exactness (`Quad/Legendre.lean`); the sums of the reciprocal distances of the zeros from the differential equation, so that the damped Newton step contracts near a zero (`Quad/LegendreNewton.lean`); the angles of the zeros by comparison of Sturm (`Quad/LegendreZeros.lean`); the initial guess is near enough to them (`Quad/GaussProps.lean`). The exact rule is that of the zeros of the Legendre polynomials (shown to exist for every order), which are a fixed point of the iteration (C88_gauss, C88_stays). The iteration of the code is proved to end from its initial guess for every number of polar angles and every positive tolerance (C88_ends; exact arithmetic), its points to be within a hundred tolerances of the zeros and in their order (C88_near, C88_computed); so the directions as computed are inside the octant with positive weights of sum one for every tolerance (C88_computed_octant), and the moments are exact up to an error that goes to zero with the tolerance (C88_limit, C88_computed_integrates, C88_computed_moments), without a rate. The comment that the weights of the Gauss rule sum to one is refuted: they sum to one half, and only the normalisation in GenProduct that is called unnecessary makes up for it.
* **C89** weights after modularisation (proved; `Quad/ReweightProps.lean`). Model: sorting, std::unique, midpoints. Proof: uniqueness of sorted lists, telescoping. Proved, with fp_equiv_ulp a parameter that tells the azimuths apart; C89_renumbered shows that azimuths in another order are sorted, so that indices of angles change.
* **C90** user-defined quadratures (partial; `Quad/UserProps.lean`). Model: attributes of the angle tags, checks of each angle and of the sum of weights. Proof: induction over the tags, trigonometry over the reals. Proved except for the last sentence, which is refuted: zero cosines pass, so that images in different octants coincide (C90_on_axis); a negative polar angle with an azimuth in the third quadrant passes with a negative reciprocal sine (C90_negative_polar); a missing polar angle means a vertical direction with an infinite one (C90_vertical).
* **C91** saving, restoring and assigning angular quadratures (partial; `Quad/SaveProps.lean`). Model: arrays written and read, outcomes with undefined behaviour, assignment. Proof: round trip by induction over the angles, exact conditions for each outcome. The round trip is proved for every quadrature whose reciprocal sines agree with the cosines, which includes all that are constructed from such angles; lengths of the arrays of azimuths and polar angles are not checked, and shorter ones are read past the end (C91_outcomes, exact). The check of operator= compares n_polar and n_azimuthal only, which are -1 for all level-symmetric and user quadratures (refuted with orders 2 and 4).
* **C92** command line and name of the case (partial; `Input/ArgsProps.lean`). Model: argument loop, strip_extension, case_name tag, on lists of characters. Proof: equivalence with an inductive grammar of command lines; induction over strings. Exact characterisation of the accepted lines and of the result; refuted for files without extension whose path contains a dot: strip_extension cuts at a dot of a directory, "./input" has the empty name and writes to ".h5"; unknown flags are taken for the file name (C92_other_flags).
* **C93** correction factors in files (partial; `Cmdo/DataProps.lean`). Model: tags, files as partial functions to datasets, loops over groups, angles and planes. Proof: induction over the loops; exact conditions, then values by plane. Exact condition for acceptance of several tags and values of every plane proved; round trip proved for one macroplane and refuted for more: a file of the whole core passes the test of its shape, is read into a buffer of one plane and rejected (C93_two_planes). The default of top_plane is np-1 in the checks and 0 in the reading, so that a tag without it is always rejected with more than one macroplane (C93_top_missing); a single file whose first dataset has fewer than three dimensions is read past the end of its dimensions (C93_whole_core).
* **C94** regions of cross sections (partial; `XS/RegionProps.lean`). Model: construction, update, removal and comparison of a region. Proof: induction over histories of updates. Contents and removal proved for all histories; is_fissile is only computed in the constructor (regions of homogenised meshes, which are constructed empty, are never fissile), and == ignores the fission spectrum (both refuted).
* **C95** homogenised cross sections in files (partial; `XS/SaveProps.lean`). Model: output, both readers and the choice between them; files as partial functions to datasets. Proof: injectivity of the cells of the pins for the round trip, C22 for scattering; induction over the tags. Round trip of cross sections, scattering and removal proved for non-negative scattering; the group bounds are not read from a single file (refuted), from several files those of the last are taken (C95_bounds). Acceptance and values of several tags are exact. A file of the same core with more groups is accepted and the removal cross sections are written past their end (C95_more_groups); files of several tags with scattering for too few pins are read past the end (C95_few_matrices).
* **C96** regions of homogenised meshes (proved; `XS/PinMapProps.lean`). Model: loops over macroplanes, pins and planes of the constructor, the copy for condensed meshes and update. Proof: uniform concatenation, C48 for the planes of the macroplanes. Proved for all divisions into macroplanes and all placements of pins; the placement is taken as a bijection, which is C83/C24 of this model.
* **C97** material library (partial; `Mat/LibProps.lean`). Model: lines of the file, the regular expression of headers, the nested loops of the reader, maps by name and identifier. Proof: unique decomposition of lines; induction over lines, materials and tags; C22 for scattering. Lines, headers, contents, acceptance and identifiers are exact; headers that do not match are accepted under the empty name and of two materials with the same name the last is taken, although the code means to reject them (refuted); n_materials counts tags, so an identifier given twice is counted twice (refuted, proved for distinct identifiers). Conversion of text to numbers is a parameter; the constructor from a FileScrubber is the subject of C138.
* **C98** pins and maps by identifier (partial; `Core/BuildProps.lean`). Model: the map loops and the constructor of pins with the loop over materials that ends at the first fissile one. Proof: induction over tags and materials. Maps proved; the condition for pins is exact: materials behind the first fissile one are not looked up, so that unknown ones are accepted (refuted; proved where no material before the last is fissile).
* **C99** assemblies (partial; `Core/BuildProps.lean`). Model: attributes, groups of lattices, the reversing loops, comparison with outcomes. Proof: induction over the groups; exact conditions. Acceptance, order of planes and macroplanes and compatibility are exact; an attribute hz that is not positive is accepted and leaves the assembly without heights (refuted), so that the constructor of the core reads them past the end even when it compares the assembly with itself (C99_undefined); transitivity, on which the constructor of the core relies in a comment, is refuted for heights 150 and 300 units in the last place apart.
* **C100** the core from its assemblies (partial; `Core/BuildProps.lean`). Model: 32-bit indices, placement loops, boundary conditions, ParseCore. Proof: refinement of the 32-bit loops to those of C49, induction over tags. Proved for dimensions whose product is below 2^32: placement as in C49, acceptance, pins and boundaries, boundary conditions; ParseCore exact. Refuted in general: nx = ny = -1 with a single identifier passes the check of their number, since the product wraps to one, and is written behind the end of the array, in cores and in lattices (C100_negative).
* **C101** pin powers (partial; `Sweep/PowerProps.lean`). Model: nested loops over macroplanes, pins and regions with a running region index; deposits by position. Proof: loop invariants for the running index, sums over a permutation of the regions, C09 for the normalisation. Element by element proved for both kinds of sweepers; the sum that the header gives, the number of elements of the array, is refuted: TransportSweeper::pin_powers normalises to the number of fuel pins of one plane, also with several macroplanes (exact value proved), Sn sweepers to the number of cells with power.
* **C102** total fission, fission source and residual of the flux (proved; `Sweep/PowerProps.lean`). Model: the loops over regions of the cross-section mesh and groups. Proof: sums over a permutation of the regions; induction over the elements. Proved for cross-section meshes whose regions are a partition of the regions of the sweeper (C24, C96).
* **C103** zeroing of coarse data (proved; `Sweep/CoarseProps.lean`). Model: loops over the surfaces of planes with the numbering of the mesh. Proof: the ranges of surfaces by orientation (C11, C13). Proved.
* **C104** the 2D3D sweep (partial; `Cmdo/SweepProps.lean`). Model: the body of sweep with the sweeps of MoC and Sn as parameters and a log of events; loops over groups and outer iterations. Proof: induction over groups and iterations; the pin fluxes of C36. Schedule, residual and sign of the Sn flux proved for every sweep that ends normally; exact conditions without projections and for the projection to MoC. Refuted: Sn fluxes that are not positive are set to zero, and set_pin_flux_1g of MoC then throws for zero (C104_claim_false); projection to Sn writes macroplane values to the first planes (C104_moc_claim_false, proved where each plane is a macroplane); moc_modulo="0" divides by zero (C104_options_claim_false); one cell reads outside of the flux (C104_moc_single). The exception of the transverse leakage (C37) is left out.
* **C105** options of sweepers and solvers (partial; `Input/FactoryProps.lean`). Model: the string comparisons of the factories, the mutual recursion with a depth bound, the search for the quadrature, validate_input. Proof: case analysis by attribute; the depth bound is shown to be never reached; induction over enclosing tags. Tables of all factories, options, quadrature and warnings are exact. Refuted: equation="DD" is rejected although case is ignored in the neighbouring attributes; equation="CDD" is accepted in an <sn_sweeper> of 2D3D and rejected for type="sn"; "gauss-seidel" is accepted by Sn and rejected by MoC (the converse holds); the 2D3D example of doc/input.dox has no n_inner in its <sn_sweeper> and is rejected (the two other examples are accepted). Conversion of text to int is a parameter; the other work of the constructors is taken to succeed.
* **C106** points and surfaces of the coarse mesh (partial; `Mesh/PointProps.lean`). Model: loops over grid lines, the case analysis at corners with outcomes for reads at negative indices, bisection. Proof: the loops of C74, numbering of C11, neighbours of C14; case analysis by kind of corner. Surfaces of points inside of cells, on lines and at corners are exact; coarse_cell_point proved for points behind the lower faces of a cell. Refuted: at the two lower corners of the mesh the table of surfaces is read at a negative index (everywhere else there is a result); surfaces at corners are those of the plane of the cell, not of the bottom plane as mesh.hpp says (proved for other points); points on the lower sides of the mesh are given another cell, for x that before the first of its row. Comparisons of coordinates are taken to be exact on grid lines.
* **C107** source of the 2D3D sweeper and error of the fission source (partial; `Source/PairProps.lean`). Model: both sources with the parts of the common fission source; normalisation and the loop of the error with outcomes for reads out of bounds. Proof: C28, C47 and C09; induction over the loop. Sources of both sweepers proved without external source; with one, the source of Sn is the same as without (external claim refuted). The error of the fission source is proved for single sweepers; with the 2D3D sweeper only all regions of Sn and the first of MoC are compared, the last as many as Sn has are not (refuted; what is compared is exact).
* **C108** the solution of the infinite medium is a fixed point (partial; `Medium/BoundaryProps.lean`, `Medium/Props.lean`). Model: outer iteration, group loop and the inner iterations of both sweepers, on top of the sweeps of C30 and C31, the source of C28 and the schemes of C29; the boundary update of C17 acting on the arrays of both sweepers. Proof: an invariant (flux and incoming values of the infinite medium) is kept by each ray, angle, plane, ordinate, cell, inner iteration, group and outer iteration; cells by induction on the distance from the side where the ordinate comes in. Proved for both sweepers and all schemes but the partial moment balance, which reproduces a uniform flux in cells of unit height only (C108_pmb_claim refuted; exact condition proved). Corrected diamond difference: exactly for correction factors of one half, which is what an uncorrected sweep uses. CMFD, coarse data and the 2D3D sweeper are not part of the iteration. Scattering from group to group is not negative (as in C28).
* **C109** fluxes and k stay non-negative (proved; `Medium/PositiveProps.lean`). Model: the outer iterations of C108. Proof: an invariant (flux and boundary values not negative) is kept by each ray, angle, plane, inner iteration, group and outer iteration; C31_nonneg for rays; the replacement of negative fluxes for Sn. Proved for MoC with the boundary update of C17 and an exponential with 0 <= expo(x) <= 1 above the tangent (C33 and C35 state when), and for Sn with any scheme. CMFD and coarse data are not part of the iteration.
* **C110** neutron balance of a converged calculation (proved; `Medium/BalanceProps.lean`, `Medium/BalanceSnProps.lean`, `Medium/ReflectProps.lean`). Model: the outer iterations of C108; sums over regions by material; the boundary update of the store on rows (MoC) and faces (Sn). Proof: C31_balance for a sweep of all planes and C30_global_balance for an ordinate; the state at each group from the group loop; groups do not touch the flux and boundary values of others; exchange of sums over groups; the reflective update is the outgoing values rearranged by an involution (C17), so that weighted sums stay. Proved. The closed case takes the conditions under which the boundary update is defined (Pre of C17: the layout that the sweepers make), reflection for Sn in three dimensions, and no step with negative flux for Sn, where replacing negative fluxes by zero would add neutrons. One inner iteration per outer iteration, as in the statement: with several of them the self-scattering is that of the last but one. Scattering from group to group is not negative (as in C28).
* **C111** superposition and scaling (proved; `Medium/LinearProps.lean`, `Medium/LinearSnProps.lean`). Model: the outer iterations of C108. Proof: linearity of rays, angles, planes, cells and ordinates by induction over the loops, with boundary values by list; for the boundary update a description of every value (kept, zero, copied from) that does not depend on the values; the quotient of total fission in the eigenvalue. Proved. In exact arithmetic; CMFD, coarse data and external sources are not part of the iteration. The fix-up of negative fluxes is not additive (C111_fixup_not_additive), as one expects of it; only its multiples are as stated.
* **C112** order and bounds of the flux (proved; `Medium/MonotoneProps.lean`). Model: the fixed-source steps (external source read with bounds, scattering from all other groups, inner iterations) on top of the sweep of C108. Proof: order: linearity (C111) and non-negativity (C109) of the difference; bounds: an invariant kept by each ray, angle, plane, inner iteration and group, with the tangent bound of the exponential for the flux of a region. Proved in exact arithmetic for tracks that do not cover more than the volume of a region (C33) and an exponential as in C109. The external source enters by what initialize_group reads; that an array is accepted and read in bounds at all is C28 and C60. One group after the other as in the code, so that later groups see the new flux of earlier ones.
* **C113** convergence of the fixed-source iteration (proved; `Medium/ContractProps.lean`, `Medium/DrainProps.lean`). Model: the fixed-source steps of C112; the boundary update of the store by type of face. Proof: the invariant of C112 for differences with the attenuation of rays; what is lost in the first of two steps in the flux is lost in the second in all; powers of the factor tend to zero; the limit as the sum of a geometrically bounded series, a fixed point by uniform bounds. Proved in exact arithmetic under the conditions of C112. Uniqueness over any Archimedean ordered field, existence of the limit over the reals. That vacuum and reflection let no incoming value stay is proved of the boundary update (C113_store); prescribed values stay. Convergence of eigenvalue iterations is not claimed.
* **C114** arrays in output files (partial; `H5/Props.lean`). Model: files as lists of named datasets; each read and write function with its checks, outcomes for exceptions, assertions and accesses out of bounds. Proof: case analysis; induction over extents for the comparison loop. The positive parts and all outcomes with extents that do not fit are proved; the claims for writing with separate extents and for reading into arrays with elements are false of the code. The HDF5 library is trusted (a dataset has extents and their product of values, creating a name in use fails, reading and writing copy all values), extents are natural numbers without overflow of int.
* **C115** contents of the output file (partial; `H5/OutputProps.lean`). Model: the list of groups, datasets and links that each output function creates, in its order, and a file that refuses names in use, missing groups and sources, and extents that do not fit. Proof: blocks of output with their names at the top: appending, nesting and repeating by number keep the conditions; numbers with fill are injective by their value. Writing in full is proved for all combinations; the claim that groups are numbered from one everywhere is false (xsmesh, alpha_x, alpha_y, beta, SnResid and transverse_leakage count from zero in the same file) and holds for MoC (C115_groups_partial). Values are not part of this model; that sizes of arrays are those of the mesh is by reading of the constructors.
* **C116** CMFD keeps a converged Sn solution (proved; `Medium/AccelProps.lean`). Model: outer iterations with the currents of the last inner iteration, and do_cmfd with assembly, residuals, the iteration of C59 with the matrices of C40 and the projection of the flux. Proof: currents: induction over ordinates with C77; fixed point: C28, C47 and C40; invariants of the loops over groups and iterations. Proved for Sn in three dimensions with one inner iteration and without sub-planes. The linear solver is a parameter that returns a guess that solves the system (Eigen returns a guess with zero residual unless the right-hand side is zero, which is excluded by assuming a source in each group); couplings are arbitrary. Partial currents and surface fluxes are not part of it, as update_incoming_flux is not called.
* **C117** MoC currents balance with the flux in every coarse cell (proved; `Moc/SweepCurProps.lean`). Model: the loops of the sweep kernel over planes, angles, rays and segments with the current worker, expansion and division by area. Proof: what the flux loses in the segments of a cell is what the currents of C75 carry out (both directions, by reversal); invariant of the loops; faces of other planes and axial faces are different faces (C11); areas by C13. Proved for one plane to a macroplane, one thread, and rays as C75 needs them (points recognised, fewer than 256 segments in a cell). That segments of a ray lie in regions of the cell passed is a hypothesis (ray tracing of pins is C71 to C73); regions of a cell are given by a table from regions to cells. Sub-planes are covered by C38, which shows where the balance fails.
* **C118** CMFD keeps a converged MoC solution (partial; `Medium/AccelMocProps.lean`). Model: outer iterations of MoC with the currents of C117, homogenisation with the flux (C26), pin flux and its projection (C36), CMFD as in C116 with zero corrections on axial surfaces. Proof: removal and source of a pin as sums over regions (C26); balance of a coarse cell from C117; CMFD as in C116; the projection with an unchanged pin flux changes nothing; induction over the steps; witness with two planes. False in general and proved with the exact condition: the flux of a converged MoC iteration solves the CMFD systems if and only if in every coarse cell and group the currents of diffusion through top and bottom are equal (C118_iff); then CMFD and any number of accelerated steps repeat it (C118_steps_partial). One inner iteration, one plane to a macroplane, rays as in C117; the linear solver is a parameter as in C116.
* **C119** The eigenvalue of a converged MoC solution is unique, largest and monotone (proved; `Medium/EigenProps.lean`). Model: the eigenvalue iteration with the MoC sweeper of C108 to C113; materials exchanged region by region. Proof: comparison: a state that a step makes no larger is at least the fixed point (C112, C113); the smallest quotient of two fluxes gives the order of the eigenvalues; a sweep with more scattering is a sweep with a larger source; uniform flux as a state of comparison. Proved for ordered fields with the Archimedean property (rational and real numbers). The flux itself is not unique: planes that MoC does not couple can have any flux relative to each other (example of C118). That the iteration converges is not part of the claim.
* **C120** The initial source of Monte Carlo is in the box and uses its own random numbers (partial; `Mc/SourceProps.lean`). Model: the constructors of the solver and of its bank, with the order of evaluation as a parameter of every site and std::length_error as an outcome of its own. Proof: induction over the sites; the generator by C01 to C03; cases over the input; concrete seeds. Acceptance, sites, draws and the rejection flag are proved; the bound of the group and the open upper bounds need that the generator does not return one (C03). False: the check of the number of particles (C120_refuse_claim_false, C120_length_error), independence of the compiler (C120_order_claim_false) and fresh random numbers (C120_fresh_claim_false, C120_reused). Nothing compares the box with the mesh; where a site outside of it leads is not part of the claim. Conversion of text to numbers by pugixml is not modelled.
* **C121** expected scores of a Monte Carlo flight and collision (proved; `Mc/ExpectProps.lean`). Model: the history of a particle of C80 and C81 and the directions of C78, with single random numbers replaced by the variable of an integral. Proof: interval integrals: each choice is an interval of random numbers (C27, C80) whose length is the probability; the length of a flight by the integral of the logarithm; directions by products of integrals over the two numbers. Proved for single flights and collisions over the real numbers, for each random number with the others held. Independence of the numbers of one history is not a property of the generator (C01 to C03) and is not claimed; neither are variances, nor the sum over a whole history.
* **C122** CMFD systems have one solution, and what the accelerated iteration repeats is a solution (partial; `Cmfd/UniqueProps.lean`, `Medium/AccelFixProps.lean`). Model: the matrices of C40 and the accelerated step of C116. Proof: sum over the cells with negative flux: columns of the matrix sum to removal, off-diagonal entries are not positive; existence by dimension; fixed points: the balance of a sweep that has not converged (C122_balance), induction over the groups, uniqueness with the transport cross section in place of removal. The first part is false as stated: nothing in the code limits the corrections, and with currents against the flux the system is singular or gives negative flux from positive sources (C122_claim_false, C122_sign_false). It is proved if every current is at most twice the coupling times the flux of the cell it comes from (C122_nonneg, C122_unique, C122_exists, C122_bound). The second part (C122_fixed) is proved under the same bound, for a positive flux of sweep and CMFD; that CMFD solves its systems is a hypothesis, since it stops by tolerances (C41). Not done for MoC, where the spectrum of a pin is weighted with the flux of the step before.
* **C123** options and tables of the ray data; warning about regions without rays (partial; `Rays/OptionsProps.lean`). Model: the constructor without the tracing of rays (C32, C74, C75). Proof: cases over the attributes; the loop that copies entries as a repeated list; induction over the angles for the counts. Options (C123_accept, C123_read), modules (C123_modules, for pitches compared exactly; the code allows a difference in the last places) and tables (C123_tables) are proved. The warning is false as stated (C123_claim_false): the counts of the angles before are kept, so that an angle is warned about only if a region has been missed by it and by all angles before (C123_warn), and there is no warning at all exactly if the first angle crosses every region (C123_silent). A region missed by an angle has less than its area after flat correction (C123_lost). Conversion of text to numbers by pugixml is a parameter.
* **C124** macroplane tables of the MoC sweeper fit the mesh and its boundary conditions fit the rays (proved; `Moc/TablesProps.lean`). Model: the tables as the constructors fill them, with reads and writes out of bounds as no result. Proof: induction over the macroplanes; the list of macroplane numbers as blocks for the offsets; the loop over angles with the entries of the mirrored directions; C17, C48, C85 and C123 for the rest. Proved for the tables (C124_regions, C124_volumes, C124_offsets), the sizes (C124_sizes, with the tables of C123) and both forms of the boundary update with these sizes (C124_update, C124_update_angle; the gap in the size table that C17 has does not occur). That each direction has a ray on each side is a hypothesis (C34).
* **C125** The CMFD power iteration converges (proved; `Cmfd/StrictProps.lean`, `Medium/ConvergeProps.lean`). Model: the CMFD loop of C41 and C59 with the matrices of C40 and the materials of C116. Proof: cells coupled along the axes carry a zero of the flux to all cells, so that sources anywhere give flux everywhere (C125_everywhere); an iteration is a matrix with positive entries on the cells with fission, divided by the eigenvalue; the largest and smallest quotient of fission sources come together by a factor below one in each iteration (Perron), which gives existence, uniqueness and the limit; stopping by continuity of the three criteria. Proved over the real numbers. The linear solver (BiCGSTAB of Eigen) is a parameter that returns a solution if there is one; with its tolerance and limit of iterations it need not. The hypotheses on corrections are those of C122, strict between cells; the code does not limit them. With up-scattering the source of a group has flux of the iteration before, which is not covered. An initial residual of zero makes a quotient without value (C59_zero_residual).
* **C126** timers show the time between starts and stops, and a run starts and stops each in turn (partial; `Timers/Props.lean`). Model: timers as a table by their path, a clock value for each call, failed assertions and reading an unset start as outcomes of their own; the calls of a run as lists. Proof: induction over the calls with the starts and stops of one timer as specification; an abstraction that keeps which timers exist and run, evaluated for all sets of parts, with uses as steps that do not change it. The sums (C126_time), runs (C126_run) and the bound by the time of the run (C126_root) are proved, for a clock that does not go back. False: toc returns the time of all intervals, not of the last as its documentation has it (C126_toc_claim_false; exactly C126_toc_iff), new_timer returns a timer that exists as it is (C126_new_claim_false, C126_new), a part can show more than the whole, since the outer timer is stopped first (C126_parts_claim_false), and a second call of run fails an assertion (C126_again_claim_false, for every run C126_again) or, without assertions, shows wrong times (C126_again_release). Runs that end by an exception do not print timers and are not modelled; the text printed is not.
* **C127** what is written to LogScreen is seen on the screen and in the log file; warnings are given once and counted (partial; `Log/Props.lean`). Model: screen and log file as lists of characters, the tee buffer character by character with its error flag, the table of warnings. Proof: induction over characters and over calls, with the text the program says as specification. The counts (C127_count), the texts if the file can be opened (C127_both) and the list on the screen (C127_summary) are proved. False: if the file cannot be opened, after one character the screen shows nothing written to LogScreen any more (C127_screen_claim_false, for all programs C127_lost and C127_silent), and the list in the log file lacks the number (C127_list_claim_false). Streams are sequences of characters; the screen takes all of them; files that fill up while they are written are not modelled.
* **C128** Monte Carlo sampling tables in doubles select a group and a reaction that exist (partial; `Mc/FloatProps.lean`). Model: the tables of C27, C58 and C80 with every operation rounded; rounding to nearest even of rational numbers as a computable function. Proof: monotone rounding keeps sums of non-negative terms in order; relative error added up by induction; counterexamples evaluated in the kernel. Proved: order and length for any monotone rounding (C128_monotone), which numbers give a group and that there is scattering into it (C128_group, C128_chi), the last entry is at least 1 - (2 ng + 2) 2^-53 (C128_last, for sums without subnormal results), the reaction is one of three and not scattering or fission with zero cross section (C128_reaction). False: with the shipped UO2-3.3 and with a spectrum 0.33, 0.56, 0.11 the tables end below one, and the number 1, which every seed reaches, gives the group ng (C128_claim_false, C128_uo2, C128_chi_claim_false); a capture is possible where the cross section of capture is zero (C128_capture_claim_false). Rounding to nearest even with subnormals, operation by operation; overflow, infinities and fused operations are not modelled.
* **C129** the MoC sweep in doubles: exponential table, angular flux and scalar flux (partial; `Moc/FloatProps.lean`). Model: the table of C50 and the sweep of C31 with every operation rounded. Proof: monotonicity of rounding and the spacing of doubles in [8, 16) for the index; absolute errors added up for the interpolation, relative errors in the last interval; induction over segments, rays, angles and planes for the sign; the exponential at one node by its Taylor polynomial. Proved: exactly which arguments read outside (C129_index: those from -2^-50 on), values between zero and one for all others (C129_range, with what is needed of exp in libExp_table), boundary values not negative for any monotone rounding (C129_boundary) and with the table (C129_sweep, segments thicker than 2^-50). False: reads inside for all negative arguments (C129_bounds_claim_false; true in exact arithmetic, C50), angular flux at most the larger of the two (C129_max_claim_false), scalar flux not negative (C129_flux_claim_false, with the hypotheses of C31_nonneg and an exponential within one unit in the last place). Rounding as in C128; one thread, so that sums have one order.
* **C130** random numbers and tallies in doubles (partial; `Mc/StatsFloatProps.lean`). Model: random numbers of C03 and C120 and tallies of C44 with every operation rounded. Proof: spacing of doubles within a binade for products with numbers below one; doubles below a rounded difference are below the difference; factors 1 +- 2^-53 multiplied up by induction over the scores; counterexamples evaluated in the kernel. Proved: for random numbers below one random(ubound) is below its bound (2^-1021 or more), random(lbound, ubound) is not above its own (C130_below) and random_int is below its bound (C130_int); lower bounds (C130_range) and the cosine (C130_polar) for all of [0, 1]. The mean is within n + 1 roundings of the exact mean (C130_mean) and the deviation is a number if the variance of the scores exceeds (3n + 6) 2^-53 of their mean square (C130_deviation). False: random(lbound, ubound) below its bound (C130_open_claim_false), at most its bound for the number one (C130_upper_claim_false), mean between the scores (C130_mean_claim_false), deviation always a number (C130_deviation_claim_false). Rounding as in C128; overflow is not modelled.
* **C131** parallel sweeps and particle histories have no data race (partial; `Par/RaceProps.lean`). Model: a region as a list of OpenMP constructs; for each thread the accesses between two barriers, for any assignment of iterations and single blocks to threads. Proof: induction over constructs: a piece that ends with a barrier can be treated alone; pairs of accesses by location. Proved: no race in the MoC sweep without currents (C131_moc), in the Sn sweep (C131_sn, for as many threads as omp_get_max_threads() gave when the sweeper was made) and in a Monte Carlo cycle (C131_mc); with the boundary update after each direction two threads of the Sn sweep would race (C131_sn_switch); the rays as laid out meet the condition on slots (C131_rays). False for the MoC sweep with currents or correction factors (C131_moc_claim_false); there every race is between stores of the same value, and a thread reads only what it has stored itself before (C131_moc_agree, planes with one direction or more). Only accesses to memory that is written in the region are modelled; accesses are ordered by barriers, the implied ones of for and single, critical sections and atomic updates.
* **C132** the drawing of the geometry shows the regions of the plane at their places (partial; `Draw/Props.lean`). Model: the file as the list of its calls, with an interpreter of them for the state of a cairo context. Proof: induction over lines, rings and pins for the path and the strokes; points of a stroke by an affine transformation. Proved: which points have ink (C132_drawn, both directions), what this means in rectangular pins (C132_rect) and in cylindrical ones with an even number of sectors (C132_sector, C132_cyl), that nothing of a pin is drawn outside of its square (C132_inside), which pins are drawn where and for which planes there is an error (C132_output; origins of pins are those of C83). False: boundaries between pins over the whole core (C132_claim_false; true for cores not higher than wide, C132_pins_partial), nothing but rings and sector lines (C132_cyl_claim_false, one sector). The behaviour of cairo is modelled from its documentation; numbers have six digits in the file and are exact in the model.
* **C133** surface fluxes of the three current workers (partial; `SurfFlux/Props.lean`). Model: post_ray of the two MoC workers for surface flux and current; upwind_work and current_work of Sn for the surface flux. Proof: induction over the coarse data of a ray with the walks of the two workers kept in step; the Sn surface flux as the current of a direction with components of size one; induction in the direction of the sweep for the flat field. Proved: the two MoC workers tally the same currents (C133_currents); what moc::Current adds to the surface flux, times the component of the direction, is the difference of the currents of the two directions, which are those of C75 (C133_moc). False: equal surface fluxes of the two MoC workers (C133_moc_claim_false; CurrentCorrections has the net current over the component of the direction, C133_corr_partial), Sn surface flux with weights (C133_sn_claim_false; without, C133_sn_partial, and the number of directions times the angular flux in a flat field, C133_flat_partial, C133_flat_claim_false), incoming flux not changed (C133_incoming_claim_false; it is multiplied by the number of directions over 4 pi, C133_first_partial). Directions with no component zero; three-dimensional Sn only; the division by the area after a MoC sweep is left out.
* **C134** index arithmetic of the coarse mesh and of the boundary values fits the integer types (partial; `Mesh/IntProps.lean`). Model: the functions of C10 to C12 and C16 with the type of each expression; overflow of int is an outcome of its own. Proof: each expression has the value in unbounded integers if that is in range, from the bound on cells; the other way, an expression that is defined has that value. Proved for meshes of less than 2^31 / 6 cells (C134_counts, C134_cell, C134_table, C134_index, C134_normal, C134_neighbours) and for stores of less than 2^31 values (C134_store, C134_face); beyond, the behaviour is undefined (second parts of C134_table and C134_store). False as stated: the size of the table overflows before the numbers of surfaces do (C134_claim_false, 720 x 720 x 720 cells), and the number of boundary values of all groups before that of one (C134_store_claim_false, 172 groups, 192 directions, 255 x 255 x 100 cells). Fine mesh regions, rays and other indices are not covered; assertions are not modelled.
* **C135** errors end a run with a status that is not zero and with their message on the screen and in the log (partial; `Errors/Props.lean`). Model: the program as a tree of throw, handlers, output and parallel regions, with an interpreter for how it ends and what it has written. Proof: induction over the tree; case analysis over the parts of the run; induction over identifiers, histories and angles. Proved: a mocc::Exception that leaves a part of the run is reported (C135_report, C135_fail for the constructor of the fixed-source solver), status 0 exactly if all parts end normally (C135_zero), output only grows (C135_grows), texts of causes (C135_chain), exceptions of HDF5 in functions with catch (...) (C135_h5), unknown assemblies and materials (C135_core, C135_material), boundary updates do not throw with boundary conditions from the input (C135_update). False: exceptions of the standard library and of HDF5 terminate the program (C135_claim_false, C135_terminated, C135_lattice, C135_quad), so do those that leave a parallel region (C135_mocc_claim_false; exactly when, C135_mc), and where an exception is replaced the log lacks the cause (C135_cause_claim_false, C135_instead). What std::terminate prints, and text of the log not flushed at that time, are not modelled; interrupts are C52.
* **C136** check_balance of the sweepers reports the neutrons that are not accounted for in a cell (partial; `Medium/CheckProps.lean`). Model: both functions as loops over cells and pins that return what is printed; what they read of the sweeper is passed in. Proof: induction over cells and over the pins with the running region number; balance of a sweep as in C116 and C117, for the last inner iteration. Proved for the group swept last: Sn with positive flux and the regions of the cross-section mesh in the order of the cells (C136_sn; C136_last after an outer iteration that leaves the flux as it is), MoC without sub-planes, where the net axial current that was there before the sweep is left over (C136_moc). False for other groups, since source and, for Sn, flux are those of the last group (C136_claim_false; what is printed instead, C136_outer) and for other orders of the regions (C136_order_claim_false, two lattices side by side). With sub-planes both read out of bounds (C136_sn_subplanes, C136_moc_subplanes). Sn in three dimensions; the result of C136_outer is for one inner iteration.
* **C137** the file of rays is a program with the list of the rays (proved; `Moc/DumpProps.lean`). Model: a file as text and position, writing at the position, the loops over angles and rays with the positions they keep. Proof: induction over rays and over angles: text written so far and position at its end; a reader that skips comments and white space. Proved for every number of angles and rays, at least one ray for each angle (C137_file; C137_needed shows that this is needed). How numbers are written is a parameter; the file is taken to be opened and written without errors.
* **C138** library read through a FileScrubber (partial; `Mat/ScrubProps.lean`). Model: string streams with their failure state, variables without value, the rows, the loops over rows and materials; explode_string for comparison. Proof: numbers a text begins with as a relation; induction over values, rows and materials; refinement of the other constructor; files by evaluation. Files accepted by the constructor from the input are accepted by the other, with the same library (C138_agree); what each kind of row gives is exact (C138_row, C138_scat, C138_bounds), and the constructor ends as the first row that is not good (C138_first). That both reject the same files is refuted: the constructor from a FileScrubber ignores further numbers in a row, takes a word in place of the last number of a scattering row as zero, and uses uninitialised values if a scattering row is too short. How a number is read where it begins, and how the two counts are read, are parameters.
* **C139** mesh of CMFD with sub-planes and its surface fluxes and partial currents (partial; `Cmfd/SubProps.lean`). Model: construction of the mesh of CMFD; correction factors of surface fluxes and what store_currents writes, by number of surface. Proof: numbers of surfaces in both meshes; reconstruction as in C40, for a multiple of the flux. The mesh, its heights and volumes are proved (C139_mesh); so is what happens to surface fluxes and partial currents (C139_numbers, C139_scaled, C139_plane) and the claim without sub-planes (C139_partial). With sub-planes it is refuted: they are kept by the number of the surface in the mesh of CMFD, which in the core is a surface of the plane with the number of the macroplane, and planes with higher numbers keep old values, for partial currents zero. One group; currents with sub-planes are the subject of C40.
* **C140** what a Monte Carlo run records (partial; `Mc/CycleProps.lean`). Model: events of histories, interleaved by threads; the pusher with its tallies; step, reset and solve of the solver with its histories. Proof: reduction of any interleaving to the histories in order; invariant that tallies are empty between cycles; induction over cycles. For completed runs everything is proved (C140_run), and that the outcome does not depend on the threads (C140_threads); the last sentence is refuted: after the last cycle a further source is drawn, which is undefined if no site was banked. What a history does is a parameter (the subject of C120 to C125), as is the entropy (C43); exact arithmetic; one spatial tally stands for all; the number of active cycles is the subject of C45.
* **C141** Sn cells in double precision (partial; `Sn/FloatProps.lean`). Model: the cell functions with every operation rounded in the order of the source, division by a computed zero a distinct outcome. Proof: monotone rounding; a calculus of relative errors over the binary64 model, in which sums of doubles never lose places by underflow; bounds of the exponential; kernel evaluation of the witnesses. Proved for diamond difference, the schemes with correction factors, with fix-up and forward differencing (C141_average, C141_error_dd, C141_error_cdd, C141_balance; error bounds are not stated for the scheme with fix-up, whose branch may differ from that of exact arithmetic, and balance for diamond difference only); refuted for the step characteristics: at an optical thickness of about 1e-9 the weight is 128 and the average flux negative, below about 1e-16 and in void the code divides by zero; for a thickness of at least 2^-20 the weight lies between 0 and 7/8 and averages are not negative (C141_sc_partial), with the error of the weight at most 2^-48 over the square of the thickness (C141_rho). Results beyond the largest double are not modelled, nor contraction to fused operations.
* **C142** Source, fission source and eigenvalue in double precision (partial; `Source/FloatProps.lean`). Model: the loops over cross-section regions, groups and regions with every operation rounded in the order of the source. Proof: reduction of the loops to left folds at a region; relative errors of sums by induction over the terms, composed through products and quotients; induction over outer iterations. Proved with error bounds (C142_source, C142_self_scatter, C142_fission_source, C142_total, C142_k, C142_drift) and signs for every monotone rounding (C142_nonneg, C142_steps). The last sentence is refuted: k * t / t need not be k in doubles (C142_still_claim_false, k = 1.5, t = 0.1); the change is at most three half units in the last place (C142_still_partial). Where products underflow there is no bound: C142_underflow gives total fission zero and an eigenvalue that is not a number. Without external source and CMFD; overflow is not modelled; the constant 4 pi is any positive number.
* **C143** what convergence of the eigenvalue solver means (partial; `Source/SolveProps.lean`). Model: the count of fissile regions and the whole solve(): outer iteration, errors and loop joined, infinite and undefined eigenvalues distinct outcomes. Proof: the count by induction over disjoint cross-section regions; signs of the fission source; invariant over iterations; the loop through C46. Proved for sweepers with a fission source of their own regions (C143_count, C143_sign, C143_error, C143_iteration, C143_converged, C143_number, C143_no_fission, C143_mode; C143_infinite for fluxes without fission). Refuted for the 2D3D sweeper: the error compares the first values of an array that begins with those of Sn, relative to an average over both, with the number of fissile regions of MoC (C143_pair_claim_false). Exact arithmetic, no CMFD; errors and tolerance of the fission source are compared as squares; fixed-source steps are parameters.
* **C144** quadratures of the 2D3D sweeper, boundary values and correction factors (partial; `Cmdo/CouplingProps.lean`). Model: which quadrature the Sn sweeper has when boundary values and factors are sized and when it sweeps; every access by angle of initialisation, boundary update, MoC factors and Sn sweep as a list. Proof: bounds of lists by the extreme index; octant arithmetic of expand, reflect and reverse (C18, C19). Proved: the exact conditions on the numbers of angles under which no access is out of bounds (C144_bounds), each in-plane direction computed once (C144_once), factors of the own direction unless the quadrature is preserved (C144_match). Refuted in general: the numbers of angles are compared nowhere, so an Sn quadrature of another size than that of MoC is undefined behaviour (C144_claim_false); with preserve_sn_quadrature the factors fit exactly if the in-plane directions are the same (C144_preserve), and factors of surplus angles are never computed (C144_uncomputed). Indices of groups, cells and faces are taken to be in range; a quadrature in a data file is taken to be complete in all octants.
* **C145** the corrected Sn sweep reproduces a MoC sweep of the plane (partial; `Cmdo/ReproProps.lean`). Model: beams through the pins of the plane with the sums of the correction worker; the corrected Sn sweep over the cells in order, direction by direction; the MoC scalar flux of the regions. Proof: sums on a face seen from both sides by induction along the beam; regions of a pin by labelled sums; strong induction over the number of cells upwind with C30 and C39; induction over directions. Proved for square pins without splitting (C145_direction_partial, C145_flux_partial; link to the MoC kernel C145_kernel, faces seen from both sides sums_linked); refuted for other pins (C145_claim_false: a flat flux of one in a pin of 1 x 2 is not reproduced, because sums on a face are divided by the wrong width, as in C39). A core of one plane, one group, exact arithmetic; fluxes, lengths and collisions are taken to be positive where the code divides by them; that a ray passes from boundary to boundary through neighbouring pins is an assumption (C73, C74).
* **C146** a converged MoC solution is repeated by the Sn iteration coupled to it (partial; `Medium/CoupledProps.lean`). Model: the Sn sweeper of a group with the factors of its directions, inner iterations, groups and eigenvalue of the outer iteration (models of C108), cross sections homogenised with the MoC flux (model of C118). Proof: the pins satisfy the hypotheses of C145 by the rates kept by homogenisation (C26) and the sources of C118; induction over directions, inner iterations, groups and outer iterations. Proved for square pins (C146_outer_partial, C146_outers_partial); refuted for other pins (C146_claim_false: one pin of 1 x 2 with a flat MoC solution; after one Sn sweep the Sn flux is another one). One plane, no splitting, exact arithmetic; that the MoC solution is converged is stated with the fluxes of the beams and the MoC scalar flux they give (mocFlux of C145); the boundary condition enters by what it does to the averages (BcFits); the example keeps incoming values fixed.
* **C147** inner iterations and correction factors of the MoC part of the 2D3D sweeper (partial; `Cmdo/InnerProps.lean`). Model: the loop of inner iterations with all its effects on factors, residuals and cross sections, the MoC sweep a parameter; homogenisation (C26); factors and sums of C39 and C145. Proof: the iterations before the last by induction; the stores of the worker by induction over its visits; a pin with two regions for the refutation. Proved: exception (C147_throws), fluxes of the plain sweeper (C147_plain), order of events (C147_order), factors (C147_factors), residuals (C147_residuals); that factor and cross section belong together only for pins whose flux in the group did not change in the last inner iteration, up to a factor, or whose regions have the same cross section (C147_beta_partial; what is met in general: C147_beta_ratio). Refuted otherwise (C147_claim_false): the factors are made with cross sections homogenised with the flux before the last inner iteration, the Sn sweep homogenises with the flux after it. Without inner iterations no factors are made at all (C147_zero). The MoC sweep is a parameter, for the refutation that of C145 with fixed incoming fluxes; residuals are compared as squares; exact arithmetic.
* **C148** whole Monte Carlo histories in a uniform medium without leakage (proved; `Mc/WholeProps.lean`). Model: the loop over passes of C81 (HistoryModel), averaged over random numbers with iterated Lebesgue integrals. Proof: the average of one pass as integrals of step functions and of the logarithm; induction over passes for conserved quantities and for bounds from below and above that close up geometrically; worths by monotone iteration; duality with the infinite-medium balance. Proved: one pass (step), conservation of scores and worth (C148_conserved, C148_upper), end of histories (C148_ends, C148_drift), limits for all scores (C148_lower, C148_limit), existence of worths (C148_worth), k (C148_k) and fluxes (C148_flux) of the infinite medium (C148_dual, C148_infinite). Random numbers are uniform real numbers, a pass is averaged over the five numbers it may draw (mean; without averaging this is the loop of the model, C148_run). Hypotheses: every pass from the states considered is defined (Closed; C15, C79 and C81 tell when it is not), particles do not fly for ever without collision (Drift, which follows from a least probability of collision per flight, C148_drift; the example, a rod between two mirrors with the displacements of the code, has no such least probability and meets Drift with a two-step function). Exact arithmetic; weights are not changed by the code.
* **C149** cross-section meshes of the sweeper and of CMFD share their tables (partial; `XS/ShareProps.lean`). Model: shared tables and two views with own matrices and counters; expanded cross sections of C25, regions of C94, homogenisation of C26. Proof: invariant over all histories that names the flux of the latest update of each kind; a pin of fuel and water for the refutations. Proved: what each mesh holds after any history (C149_tables, C149_matrices, C149_updated, C149_still), every Sn sweep has the cross sections and matrices of the flux at its beginning (C149_sweep, C149_group), the correction factors those of the flux before the last inner iteration of MoC (C149_moc), agreement once the flux no longer changes what is homogenised (C149_converged) and without flux weighting (C149_unweighted); when removal and matrix agree: C149_removal_iff. Refuted at other times: after CMFD the removal cross section does not belong to the matrix of the sweeper (C149_removal_claim_false), expand returns old values because the counter of the mesh was not touched (C149_expand_claim_false; in the code expand always comes after an update of its own mesh), and the scattering source of the first group uses older matrices than the sweep (C149_source_claim_false, C149_source). Homogenisation is a parameter, for the refutations that of C26; overflow of state_ is not modelled.
* **C150** homogenised cross sections are averages of the materials of the pin (partial; `XS/HomogFloatProps.lean`, `XS/HomogMeanProps.lean`). Model: homogenisation of C26, exact and with every operation rounded in the order of the source text. Proof: averages with non-negative weights; the sums of the rounded functions by induction over the regions, their errors by counting roundings (Near); a pin with 0.9 for area and flux 3 and a group without flux for the refutations. Proved: bounds (C150_between, C150_between_scatter, C150_absorption, C150_between_spectrum, C150_between_area), one material (C150_one_material), shape (C150_shape), all in exact arithmetic; in rounded arithmetic signs (C150_nonneg) and, for binary64, errors (C150_error, C150_error_scatter, C150_error_spectrum); the removal is one subtraction (C150_removal); without rounding the rounded functions are those of C26 (C150_exact). Refuted: one material in double precision (C150_one_material_claim_false: 0.9 comes back smaller), removal (C150_removal_claim_false: -2^-52), numbers for every flux (C150_finite_claim_false, C150_zero_flux: a group without flux). A quotient with zero divisor is the outcome none; overflow and fused operations are not modelled; the volume-weighted version is not treated in double precision.
* **C151** resizing the fission bank favours no site (partial; `Mc/ResizeProps.lean`). Model: the loops of C41 with the draws as arguments; averages over all draws below given bounds. Proof: induction over the draws: after the first removal the rest of the bank is the bank without one site, up to order; (N - n)/N / C(N-1, n) = 1/C(N, n). For the generator the full period (C02) turns the count over states into a count over all numbers below 2^63, the two roundings move the limits of the intervals by at most 2049. Proved: which draws resize makes (C151_draws, C151_cycle_draws), representation (C151_mean, C151_site, C151_cycle), equal probability of selections (C151_selection) and of copies (C151_copies) for independent and equally likely draws; for the generator itself that over one period each number below N is returned 2^63/N times up to 4100, a relative frequency within 2^-50 of 1/N (C151_hits). Refuted: that it is at least the fair share (C151_hits_claim_false; N = 1, draws that round up to one miss the bank, C03). That successive draws of the generator are independent is not proved (they are not, it is an LCG).
* **C152** CMFD in double precision repeats the transport result it was given (partial; `Cmfd/FloatProps.lean`). Model: coefficients, reconstruction and matrix elements of cmfd.cpp with every operation rounded in the order of the source text. Proof: the terms that D-hat takes off and the reconstruction adds again are the same numbers, rounding is odd, so only the quotient times its divisor and three sums contribute; relative errors of sums of doubles without underflow, absolute ones for products; refutation by evaluation. Proved: signs and fractions for every rounding (C152_dtilde_nonneg, C152_stilde_fraction, C152_reflective, C152_exchange, C152_symmetric, C152_signs, C152_diagonal), errors of the coupling (C152_coupling), of the current (C152_current: 5 half units of the given current and of the diffusion current, without any assumption on magnitudes), of the surface flux (C152_surface_flux) and of the partial currents (C152_partial); without rounding the functions are those of C40 and C57 (C152_exact, C152_exact_matrix). Refuted: that the error is a fraction of the given current (C152_current_claim_false: 2^-60 between fluxes 1 and 2 comes back as zero). Zero flux on both sides: C152_zero_flux. Overflow, fused operations and the linear solver are not modelled; the average of currents over sub-planes is not treated in double precision.
* **C153** pins and points are found in double precision (partial; `Core/WhereFloatProps.lean`). Model: constructors and look-ups of C49 and C86 with every operation rounded. Proof: each face is a sum of doubles with one relative error per term; the rounded fuzzy comparison is decided whenever the distance is twice the tolerance; bisection needs only that the faces do not decrease; refutation by evaluation of 74 roundings in the kernel. Proved: order of the faces for every rounding (C153_sorted), corner of the box = last face of the plane bit for bit (C153_corner), exact where the sums are doubles (C153_exact), errors of the faces (C153_faces, C153_lattice_faces, C153_gap), location (C153_location), what it needs of fp_equiv (C153_fp_equiv), points on a stored face (C153_on_face, C153_on_plane); without rounding the functions are those of C49 and C86 (C153_without_rounding). Refuted: last pin boundary = corner of the box (C153_claim_false: three lattices of 17 pins of pitch 1.26, 3 x 2^-46 missing), a location for every point of the box (C153_box_claim_false, C153_outside: x_vec_ is read past its end). Overflow is not modelled; fp_equiv is a parameter that holds only for close numbers.
* **C154** with one fissile region the eigenvalue iteration converges, and stops when k does (partial; `Medium/OneRegionProps.lean`). Model: outer iterations of C108 with the problem restricted to one fissile region. Proof: one region: fission source = total fission / k, and the ratio that updates k cancels; reduction to the fixed-source iteration and its contraction (C113), affine in the source; the limit has positive fission because a positive source gives a positive flux (strict positivity of a sweep) and passes down the groups; refutation by evaluating the first iteration symbolically. Proved: the fission source is constant (C154_constant, any sweeper), the error of the fission source is zero (C154_error), the states are those of the fixed-source solver with an external source (C154_same), one eigenvalue (C154_unique, any sign), geometric convergence of k and flux for MoC over the reals (C154_converges; needs an exponential above its tangent and a chain of downscattering from a group with fission neutrons to one with fission). Refuted: that a calculation in which both errors are zero has found the eigenvalue (C154_claim_false: two groups, k is 1 after the first iteration from the start of the code, the eigenvalue is above 4/3; stall_first, stall_converged). The starting flux of the code and its k are used in the refutation; CMFD is off.
* **C155** reciprocity: transposed data give the same eigenvalue and the same detector response (proved; `Medium/ReciprocalProps.lean`). Model: sweep, boundary update, sources and outer iterations of C31, C17, C28, C108; the transposed problem is a problem with other data. Proof: identity for the two walks along a ray in opposite directions by induction over its segments (the sum of products of sources and gains telescopes to products of incoming and outgoing values); sums over rays and angles are permuted to slots; with Gauss-Seidel each slot is written once per sweep, in the turn of its mirror angle, so converged values are the same at every turn; mirror and reversal commute (table of octants), so the boundary terms cancel; scattering sums cancel by exchange of summation. Proved: reciprocity of the sweep (C155_sweep), of any two converged calculations with sources by group (C155_reciprocity), of fixed-source calculations (C155_fixed), equal k (C155_overlap without, C155_k with the assumption that fissions of one and emission of the other overlap, which holds for fluxes that are not negative and positive in one fissile region, C155_overlap_pos); the store of boundary values with reflection or vacuum on each side satisfies the conditions (C155_boundary). Converged means that one more outer iteration changes neither the flux nor the incoming values; one inner iteration; prescribed boundary values are excluded; Sn is the subject of C156.
* **C156** reciprocity of the Sn sweepers: transposed data give the same eigenvalue and the same detector response (partial; `Medium/ReciprocalSnProps.lean`). Model: sweeps of C30 with the cell functions of C29, boundary update of C17, sources and outer iterations of C108; transposed problem of C155. Proof: in a cell the balance and a mean of the values before and behind it, with the same weights for both directions after exchanging them, give a difference of products at the two faces; along each line of cells these telescope, from one end of the domain to the other; mirror and opposite commute (table of octants), so the terms on the faces cancel between ordinates; the sums over groups are those of C155; refutation by evaluation. Proved: opposite ordinates (C156_ordinates, C156_ordinates_2d; C156_ord3, C156_ord2 for the ordinates of the sweepers), schemes (C156_diamond, C156_half, C156_sc with the true exponential), sweep of one group (C156_sweep), any two converged calculations (C156_reciprocity), fixed sources (C156_fixed), equal k (C156_k), the boundary update and quadrature of the code (C156_boundary3, C156_boundary2). Refuted: corrected diamond difference with factors that differ between cells, although the same for opposite directions (C156_corrected_claim_false), and the fix-up of negative fluxes (C156_fixup_claim_false). Positive converged flux, so that the replacement of negative fluxes by zero after the sweep does nothing; one inner iteration; the ordinate opposite to another in three dimensions is found by three reflections, as reverse is wrong there (C19); the PMB scheme is not treated (C29).
* **C157** a reflected face equals the problem with its mirror image: half core and full core give the same Sn results (proved; `Medium/DoubleSnProps.lean`, `Medium/HalfSnProps.lean`). Model: sweeps of C30 with any cell function, boundary update of C17, sources and outer iterations of C108; the longer problem is a problem with other data. Proof: the face values along each line of cells of the longer mesh are those of two passes through the shorter one, the second being that of the mirrored ordinate, which starts from what the first leaves on the reflected face; induction over the order of the sweep; converged incoming values are the same at every turn of the sweep (C156); sources are local or sums over groups, total fission doubles and cancels in k; in the other direction the incoming values of the half are read off the longer problem and, on the reflected face, computed by a sweep of the mirrored ordinate. Proved: one ordinate (C157_ord3, C157_ord2; any scheme, which may differ between cells), a sweep of one group with converged incoming values (C157_sweep), the groups in turn (C157_groups), eigenvalue calculations (C157_k), fixed sources (C157_fixed), the boundary update and quadrature of the code (C157_boundary3, C157_boundary2). The other direction: C157_half_sweep, C157_half_groups, C157_half_k, C157_half_fixed (the incoming values on the reflected face are what the sweep of the western half leaves there; C157_local3, C157_local2: a sweep uses nothing but its sources and incoming values). Stated for the east side. That the longer problem converges to a symmetric state is a hypothesis of the other direction. Positive converged flux; one inner iteration; the region and data of the longer problem are hypotheses on the data (mirrored regions), not derived from two input files.
* **C158** the mirrored core gives the mirrored results in every iteration, Sn with Jacobi updating (proved; `Medium/MirrorSnProps.lean`). Model: sweeps of C30 with any cell function, boundary update of C17, sources and outer iterations of C108; the mirrored problem is a problem with other data. Proof: the t-th cell of the sweep with turned cosines is the mirror image of the t-th cell of the sweep, so one induction over the sweep relates all face values and fluxes; with Jacobi updating a sweep is a sum over ordinates of what each does with the old incoming values, and the mirror permutes the ordinates and commutes with reflection (table of octants); then induction over inner iterations, groups and outer iterations; the production is a sum over regions, permuted by the mirror; for Gauss-Seidel an evaluated example. Proved: one ordinate (C158_ord3, C158_ord2; any scheme, mirrored with the cells), a sweep of one group (C158_sweep), the inner iterations with the cut-off of negative fluxes (C158_group), the groups in turn (C158_groups), outer iterations with the same k (C158_outer, C158_outers), fixed sources (C158_fixed), symmetric cores (C158_symmetric), the boundary update and quadrature of the code (C158_boundary3, C158_boundary2). That Jacobi updating is needed: C158_not_gauss_seidel. Cosines are not zero; prescribed boundary values are excluded; exact arithmetic (rounded sums depend on the order of the cells and ordinates).
* **C159** the mirrored core gives the mirrored results in every iteration, MoC with Jacobi updating (proved; `Medium/MirrorMocProps.lean`). Model: sweep of C31 and C155, boundary update of C17, sources and outer iterations of C108; the mirrored problem is a problem with other data. Proof: a plane is taken apart into its walks, two along each ray, with the regions numbered over the whole mesh; with Jacobi updating the gains of the regions are the sum over all walks, each of which starts from an old incoming value, and the outgoing value of a walk is the one stored, because no two walks share a slot; a walk through mirrored regions gives the mirrored gains (induction over the segments); sums do not change with the order of the walks; the mirror commutes with reflection (C158); then induction over planes, inner iterations, groups and outer iterations; for Gauss-Seidel an evaluated example. Proved: a sweep of one plane and one group (C159_plane, C159_sweep), the inner iterations (C159_group), the groups in turn (C159_groups), outer iterations with the same k (C159_outer, C159_outers), fixed sources (C159_fixed), symmetric cores (C159_symmetric), the boundary update and quadrature of the code in a plane (C159_boundary). That Jacobi updating is needed: C159_not_gauss_seidel. That the rays of the mirrored core are the mirrored rays is a hypothesis (the walks along all rays are a permutation of the mirrored walks); it is not derived from the ray tracing for two input files. Each end of a ray has its own slot (PlaneOk). Prescribed boundary values are excluded; exact arithmetic (rounded sums depend on the order of the rays).
* **C160** results do not depend on the unit of length (partial; `Medium/UnitProps.lean`). Model: sweeps of C31 and C30, cell functions of C29, scattering matrices of C22, sources and outer iterations of C108; the problem in the other unit is a problem with other data. Proof: equality of functions, not only on the regions of the mesh: loops over regions commute with division by c (induction over the lists), the bounds of scattering rows depend on signs only; in a walk the optical thickness does not change and the gains get the factor of the spacing, which cancels with volume times cross section; the cell functions are quotients of two expressions that are both divided by c; totals of fission get a factor that cancels in k; refutation by evaluating one ordinate in one cell. Proved for MoC (C160_moc_sweep, C160_moc_group, C160_moc_groups, C160_moc, C160_moc_fixed: the same state, with either update) and for Sn (C160_ord3, C160_ord2, C160_sn_sweep, C160_sn_group, C160_sn_groups, C160_sn, C160_sn_fixed) with any scheme that is the same in both units; C160_schemes: diamond difference, step characteristics and the corrected schemes with diamond, fix-up, step and characteristic closure in z are, for any correction factors. Refuted for the scheme with parabolic moments (C160_claim_false): it subtracts dz * oz * q / (2 tz + xstr), which has two more lengths than q, and divides by a sum with oz * oz / (tz + xstr / 2), a length, and xstr, an inverse length. No hypotheses on the regions or on signs of the cross sections (c > 0: the stored rows of the scattering matrix are the same). The tabulated exponential is any function of the optical thickness, so it is included; CMFD and Monte Carlo are not part of this claim.
* **C161** the planes of a MoC calculation do not see each other (proved; `Medium/StackProps.lean`). Model: MoC sweep of C31 over all planes, sources and outer iterations of C108; a plane in a stack is the same plane with region numbers moved by an offset and weights multiplied by its height. Proof: simulation: a plane leaves the scalar flux of regions it has no segments in (induction over segments, rays and angles); the moved plane does on the moved regions what the plane does, with gains multiplied by the height, which cancels with the volume; induction over the list of planes, then over inner iterations, groups and outer iterations with the relation between the states as invariant; the total of fission of the stack is that of the plane times the sum of the heights, which cancels in k. Proved: a sweep of one group (C161_sweep), the inner iterations (C161_group), the groups in turn (C161_groups), steps with an external source (C161_fixed), an outer iteration with given k (C161_given_k, C161_unlike), stacks of planes that are alike except for their heights (C161_production, C161_outer, C161_outers), and that the sweeper of such a stack, with regions numbered plane by plane, fulfils the hypotheses (C161_stacked). Hypotheses: segments of a plane lie in its regions, no other plane has segments there (proved of stacks of alike planes), each region has one material, non-negative scattering. The boundary update is the same function in every plane (boundary arrays of all planes have the same sizes), as in the model of the sweep. Height is a factor of the weights of the rays and of the volumes; exact arithmetic (rounded sums over planes for k depend on their number).
* **C162** results depend on the cross sections of each region only (proved; `Medium/CellsProps.lean`). Model: sources, totals, sweeps and outer iterations of C47 and C108; two problems with the same number of regions whose lists of materials give each region the same data. Proof: each loop over the materials is computed pointwise, on a region (lemmas of C47) and off all regions (left as it was), so both problems give the same functions; the total of fission is rewritten as a sum over regions; then the states of both calculations are equal by induction over inner iterations, groups and outer iterations. Proved: each source and total (C162_tr, C162_self, C162_in, C162_fission_source, C162_fission, C162_production), the groups in turn and any number of iterations with sweepers that do the same (C162_groups, C162_outers, C162_steps), MoC and Sn (C162_moc_group, C162_sn_group, C162_moc, C162_sn, C162_fixed); the same order of materials is not needed (C162_order), nor the same names (C162_split; with an empty second list, materials used nowhere). Hypotheses: every region has one material (what the constructor of the cross-section mesh makes, C94), non-negative scattering (negative entries may fall outside the stored rows, C22). The list of materials with their regions is what the constructor has made; reading of the library is C97. Exact arithmetic: in rounded arithmetic the total of fission depends on the order of the materials.
* **C163** k is proportional to the yield of fission (proved; `Medium/YieldProps.lean`). Model: sources, totals, sweeps and outer iterations of C47 and C108; the other library is a problem with other data. Proof: equality of functions: the fission source is divided by b (induction over materials, groups and regions), the spectra multiply by b again, and the factor a cancels in the source and in the quotient of the totals; the sweeps use neither; induction over outer iterations. Proved: the source of fission neutrons (C163_source), the total (C163_production), any number of outer iterations with any sweeper that does not use nu-fission and spectra (C163_outers), MoC and Sn (C163_moc, C163_sn), the core made critical (C163_critical, MoC). No hypotheses on regions, signs or convergence. Without CMFD; exact arithmetic.
* **C164** Without scattering upwards the first groups do not see the others (proved; `Medium/DownProps.lean`, `Medium/DownSnProps.lean`). Model: sources and sweeps of C47, steps with an external source of C112; the cut library is the same problem with fewer groups. Proof: in-scattering is a sum over all groups that ends at G when nothing comes from later groups; MoC: an inner iteration is linear (C112), and without source, fluxes and incoming values it leaves none whatever the outgoing values, because every slot is written before it is read; so the difference of two states stays zero; Sn: every ordinate replaces its outgoing values and the update reads those of the ordinate swept or of all when all are swept (induction over ordinates, faces and the layout of the store); sweeps of later groups leave fluxes and incoming values of earlier ones; induction over inner iterations, groups and steps, and C162 between the two cut libraries. Proved: the source of a group (C164_source), a loop over the groups (C164_groups), any number of steps with the library cut after group G (C164_cut, C164_sn_cut) and with two libraries (C164_moc, C164_sn), in every iteration; the boundary update of the code reads outgoing values of the same sweep only (C164_boundary, Sn). Fixed source only: fission couples all groups. For MoC the update of the code satisfies the hypotheses (C164_store), and rays must fill all slots of the boundary conditions, which C32 is about; the signs of cross sections and volumes are hypotheses (Physical) for both; for Sn the ordinates are arbitrary functions, and states must agree at positions that are no regions, which do not exist in the arrays of the code; exact arithmetic.
* **C165** Groups without fission and without scattering upwards do not change k (proved; `Medium/SterileProps.lean`). Model: sources, totals, sweeps and outer iterations of C47 and C108; the cut library of C164. Proof: sums over all groups end at G because later terms are zero, so source and total of fission are those of the cut library; the loops over the groups keep the relation of C164; induction over outer iterations; C162 between the two cut libraries. Proved: the source and the total of fission (C165_source, C165_production), any number of outer iterations with the library cut after group G (C165_outers, C165_moc, C165_sn) and with two libraries (C165_libraries). Hypotheses on rays, ordinates and boundary updates as in C164. Without CMFD; exact arithmetic.

## Disagreements between code and properties

Each is proved with a concrete witness; the theorem is named.

* C03: random() returns exactly 1.0 for the 512 largest generator states, and random_int(n) returns n (`C03_random_claim_false`)
* C04: the 32-bit product in the history seed wraps, so that streams of different histories coincide or overlap (`C04_claim_false`)
* C05: signed overflow for -0.0 and small negative subnormals; 2+2^-21 and its negative compare equivalent (`C05_undefined_iff`, `C05_claim_false`, `C05_negative_zero_undefined`)
* C06: explode_braces drops the character before an opening brace, and loops forever on }{1 (`C06_digit_lost`, `C06_claim_false`, `C06_never_terminates`)
* C08: the rational approximation is not always the closest fraction with the given bound (`C08_not_closest`, `C08_claim_false`)
* C15: a particle leaving through two faces at once is reported on one only for the pairs west/south, bottom/east, north/top (`C15_claim_false`)
* C17: BoundaryCondition::update stops at the first empty face of an ordinate (`C17_claim_false`)
* C19: reverse in three dimensions does not reverse octants 3, 4, 7, 8 (`C19_not_involution`, `C19_claim_false`)
* C21: level-symmetric orders 12 and 14 use the weight map of the next order; order 16 and even orders below two read outside of a table (`C21_order12_not_symmetric`, `C21_order14_not_symmetric`, `C21_order16_ub`, `C21_nonpositive_ub`, `C21_claim_false`)
* C22: negative scattering entries outside the band of positive ones are dropped (`C22_lost_exactly`, `C22_claim_false`)
* C25: ExpandedXS does not notice that splitting has been switched off (`C25_claim_false`)
* C28: the external source is read with group and region exchanged (`C28_claim_false`, `C28_external_out_of_bounds`)
* C29: the PMB variant is not balanced unless the cell height is one, and reads dz outside of the mesh (`C29_pmb_claim_false`)
* C34: RATIONAL modularisation misses the angle on non-square domains and converts NaN to int for flat angles (`C34_flat_undefined`, `C34_claim_false`, `C34_wrong_angle`)
* C36: setting the MoC pin flux (PIN) with sub-planes gives a macroplane the flux of another plane; the Sn residual is taken with flux_(1, group); out-of-bounds access for one-region meshes (`C36_moc_claim_false`, `C36_sn_residual_claim_false`)
* C37: a zero flux with a negative source gives an infinite added removal (`C37_claim_false`)
* C38: the range of copied axial currents is one surface too long (first pin column); the surface flux is not expanded (`C38_claim_false`, `C38_claim_false_flux`)
* C39: face averages divide by the wrong extent if dx differs from dy (`C39_claim_false`)
* C40: with sub-planes CMFD replaces the axial current at the top of the core by zero, and surfaces inside a macroplane get the current of its bottom (`C40_top_lost`, `C40_claim_false`)
* C41: FissionBank::resize reads one past the end for 512 generator states, and is undefined for an empty bank (`C41_out_of_bounds`, `C41_claim_false`, `C41_empty_undefined`)
* C43: sites on the lower faces of the core are counted in another pin or throw; the bounds test is off by one (`C43_claim_false`, `C43_guard_out_of_bounds`)
* C44: several scores per unit weight can give a negative variance; the relative deviation of the spatial tally carries the square root of the normalisation (`C44_scalar_claim_false`, `C44_spatial_claim_false`)
* C45: one active cycle too many (`C45_never`, `C45_claim_false`)
* C46: a repeated, zero or negative dump request blocks all later ones (`C46_dumps_claim_false`)
* C49: a point on a lower face with non-positive direction is assigned to the last pin; out-of-bounds read at lattice boundaries (`C49_claim_false`, `C49_plane_undefined`)
* C50: at the upper end of the exponential table the interpolation reads one element past it (`C50_upper_undefined`, `C50_claim_false`, `C50_unsafe_undefined`)
* C52: an interrupt before the solver exists dereferences a null pointer; one during the output opens the file twice (`C52_early_undefined`, `C52_during_output_undefined`, `C52_claim_false`)
* C54: operator== of scattering matrices ignores the row bounds (`C54_claim_false`)
* C55: self_scatter with given cross sections divides by the stored ones (`C55_claim_false`)
* C56: order 10 misses the fourth moments, orders 12 and 14 the isotropy of the second moments (`C56_claim_false`)
* C57: on vacuum sides at the low end of an axis a partial current enters (`C57_claim_false`)
* C59: max_iter + 1 iterations; fission sums without cell volumes (`C59_claim_false`, `C59_production_claim_false`)
* C60: a negative or missing max_iter is accepted; a NaN residual suppresses the warning (`C60_claim_false`)
* C61: max_error is the error at the middle of a cell, and every cell has arguments with a larger one (`C61_claim_false`)
* C62: overlapping collinear segments give no intersection (`C62_claim_false`)
* C63: tangents give the same point twice; ok is true for points that were never assigned (`C63_claim_false`)
* C65: points on the left and bottom edge of a rectangular pin get the region of another row or -1 (`C65_claim_false`)
* C67: zero rings for a material and zero or negative numbers of sectors are accepted; with six sectors the outer regions get areas that are not theirs (`C67_claim_false`)
* C68: on the positive x axis the region belongs to the next ring or is n_reg; on the negative one Point2::alpha is 3 pi (`C68_angle_claim_false`, `C68_claim_false`)
* C69: the sector is wrong whenever the angles of direction and point differ by more than pi (`C69_wrong_side`, `C69_claim_false`)
* C70: from the centre the point behind is returned (along the x axis, say); towards a corner none (`C70_claim_false`)
* C71: points of horizontal rays are not ordered (`C71_claim_false`)
* C72: a ray that enters where a ring touches the edge of the pin loses a crossing; with eight sectors the diagonal lines are missing (`C72_claim_false`)
* C73: grid lines of constant x are given the length hx instead of hy, so crossings are missed in meshes longer in y than in x (`C73_claim_false`)
* C75: more than 255 segments in a cell wrap around in eight bits; MAX_NSEG is never checked (`C75_claim_false`)
* C76: the first Sn update takes the outgoing partial current; the MoC update passes a cell where a surface is needed (`C76_first_claim_false`, `C76_moc_claim_false`)
* C79: on the face it moves out of, a particle gets the distance to another face; move overshoots by the bump; at edges of the core it is left outside, alive (`C79_distance_claim_false`, `C79_move_claim_false`, `C79_inside_claim_false`)
* C80: a random number of exactly zero selects scattering where there is none (`C80_claim_false`)
* C83: planes are accepted whose lattices have different numbers of pins, so that there are more pins than positions (`C83_claim_false`)
* C86: on interfaces mesh and position belong to different pins; reads before the beginning of a vector on the lower faces and past the end above the core (`C86_claim_false`)
* C87: region_at_point passes the origin of the pin to find_reg (`C87_claim_false`)
* C88: the weights of GenGauss sum to one half, not to one as its comment says (`C88_claim_false`)
* C90: zero cosines, negative polar angles with a negative reciprocal sine, and vertical directions are accepted as angles of the first octant (`C90_claim_false`)
* C91: operator= compares only n_polar and n_azimuthal, which are -1 for level-symmetric and user quadratures; arrays of angles shorter than those of cosines are read past the end (`C91_claim_false`)
* C92: for a file without extension strip_extension cuts the path at a dot of a directory: "./input" gives the empty case name (`C92_claim_false`)
* C93: a file of more than one macroplane, as output writes it, is always rejected; the default of top_plane differs between check and reading (`C93_claim_false`, `C93_top_missing`)
* C94: is_fissile is not updated; operator== ignores chi (`C94_never_fissile`, `C94_fissile_claim_false`, `C94_equal_claim_false`)
* C95: a file with more groups than the mesh passes and is written past the end of the removal cross sections; bounds of the groups are not restored from a single file; the number of scattering matrices in one of several files is not checked (`C95_claim_false`, `C95_safe_claim_false`)
* C97: material headers that do not match and repeated names are accepted silently; n_materials counts repeated identifiers twice (`C97_claim_false`, `C97_count_claim_false`)
* C98: a pin with an unknown material behind a fissile one is accepted (`C98_claim_false`)
* C99: a height hz that is not positive is accepted and leaves the heights empty, which are then read past the end; compatibility is not transitive although the core relies on it (`C99_claim_false`, `C99_undefined`, `C99_transitive_claim_false`)
* C100: dimensions of minus one with one identifier pass the checks and are written out of bounds (`C100_claim_false`)
* C101: pin powers sum to the number of fuel pins of one plane, not to the number of elements as the header says, and differently in MoC and Sn sweepers (`C101_claim_false`)
* C104: negative Sn fluxes are "corrected" to zero and then rejected by an exception; moc_project mixes up planes and macroplanes; moc_modulo="0" divides by zero (`C104_options_claim_false`, `C104_moc_claim_false`, `C104_claim_false`)
* C105: values of the same attributes are compared with or without regard to case depending on the factory; boundary_update="gauss-seidel" is rejected by MoC only; the 2D3D example of the manual is rejected (`C105_claim_false`, `C105_equation_claim_false`, `C105_update_claim_false`, `C105_doc_claim_false`)
* C106: coarse_surf_point reads its table at a negative index at the lower corners of the mesh, and does not reduce the cell to the bottom plane as documented; coarse_cell_point gives wrong cells for points on the lower sides of the mesh (`C106_claim_false`, `C106_plane_claim_false`, `C106_cell_claim_false`)
* C107: the convergence check of a 2D3D eigenvalue calculation compares the regions of Sn and only a part of those of MoC, because n_reg is that of MoC alone and the array holds both; an external source is not given to Sn (`C107_external_claim_false`, `C107_error_claim_false`)
* C108: the partial moment balance scheme does not reproduce a uniform flux unless the cells have unit height (see also C29) (`C108_pmb_claim_false`)
* C114: writing with separate extents reads past the end of a vector (with NDEBUG) or of a one-dimensional array (always) if the extents are too large, drops values if they are too small; the iterator version pads with zeros or overflows its buffer, its assertion compares a size with itself. Reading into an array of several dimensions compares the numbers of dimensions with an empty body: a dataset with fewer dimensions fills a part of the array, one with more reads extents out of bounds. read_1d does not test for contiguity; reading an int from a dataset with several values overwrites memory (`C114_write_claim_false`, `C114_read_claim_false`)
* C115: groups are numbered from zero in xsmesh, alpha_x, alpha_y, beta, SnResid and transverse_leakage and from one in flux, fsr_flux, moc_flux, current and correction_residual of the same file (`C115_groups_claim_false`)
* C118: the MoC sweeper gives no axial currents (only set_has_radial_data), so CMFD takes diffusion through the planes, which the sweeper does not have: two planes of the same material with different flux are a solution for MoC, but not for CMFD (C118_claim_false). With one plane and reflection above and below, or equal flux in all planes, the claim holds (`C118_claim_false`)
* C120: (1) a negative or missing number of particles reaches `reserve` before its check, which throws std::length_error; the driver catches only its own exceptions. (2) The arguments of Point3 and of Direction::Isotropic call the generator in an order the language does not fix: from the left and from the right other sites come from the same seed. (3) The generator of the source and that of the histories start from the same seed, so every number of the source is the number of a history of the first cycle: with n particles the numbers 0 to 6n - 1, number j in the history j / 10000. (4) fissile_rejection, on by default, only warns (`C120_refuse_claim_false`, `C120_order_claim_false`, `C120_fresh_claim_false`)
* C122: d_hat is not limited (cmfd.cpp:427-499): three cells in a line with flux 1, 3, 9, coupling 1/20 and currents 1 towards the higher flux give a singular matrix although removal and sources are positive (`C122_claim_false`, `C122_sign_false`)
* C123: nrayfsr is set to zero once for a plane and not for each angle: regions missed by any angle but the first are not reported if an angle before crossed them, though each angle is corrected by itself (`C123_claim_false`, `C123_lost`)
* C126: (1) toc returns time_, the sum of all intervals; timers.hpp:75-80 says the time between tic and toc. (2) new_timer with a name that exists starts nothing: the second InputProcessor of a process fails the assertion in toc, or adds the time since the first run. (3) timer_.toc() comes before timer_sweep_.toc() in both sweepers, and before timer_init_.toc() in the constructors of Sn and CMFD (`C126_toc_claim_false`, `C126_new_claim_false`, `C126_again_claim_false`, `C126_parts_claim_false`)
* C127: (1) overflow of the tee buffer reports failure if either stream fails, and StartLogFile does not look at the file it opened: LogScreen is in error after one character, so that a run whose log cannot be written shows nothing on the screen either. (2) generate_output writes the number of warnings to std::cout between two writes to LogScreen: the log has "There were  warnings:" (`C127_lost`, `C127_screen_claim_false`, `C127_list_claim_false`)
* C128: out_cdf multiplies by a rounded reciprocal and adds up; nothing sets the last entry to one (reaction_cdf does). sample_cdf returns cdf.size() for a number beyond the last entry, which is then used as group index: out of bounds in the cross sections. The example library has such a material (examples/c5g7.xsl, UO2-3.3, fourth group) (`C128_claim_false`, `C128_capture_claim_false`, `C128_chi_claim_false`)
* C129: (1) v - min_ is rounded to 10 for -2^-50 <= v < 0, so that the index is N and d_[N+1] is read, one element beyond the array; C50 has this for v = 0 only. (2) The node before the last is computed with an error of 5.5e-16, so that for thin segments 1 - exp is larger than the optical thickness by that much: the scalar flux of a region with source and no inflow is negative for a thickness below 1e-12. (3) psi - q is rounded, so that psi - (psi - q) can exceed q by a unit in the last place (`C129_bounds_claim_false`, `C129_max_claim_false`, `C129_flux_claim_false`)
* C130: (1) random(lbound, ubound) returns ubound for numbers near one, and for the number one, which every seed reaches (C03), it can exceed ubound by a unit in the last place (0.3, 0.82); random_int returns ubound for it. (2) Three scores of 1.3 have a variance of -1.1e-16 as computed, so that the deviation is not a number; in exact arithmetic it is zero (C44). (3) Three scores of 0.1 have a mean above 0.1 (`C130_open_claim_false`, `C130_upper_claim_false`, `C130_mean_claim_false`, `C130_deviation_claim_false`)
* C131: the current worker is shared by all threads, and set_plane assigns its members plane_, cell_offset_ and surf_offset_ (and cell_offset_xs_) in all of them without protection; with correction factors ang_ and the sums are assigned so as well. All threads store the same values, so that no result changes with usual compilers, but it is undefined behaviour (moc_current_worker.hpp:175-180, correction_worker.hpp:100-107, 207-221) (`C131_moc_claim_false`)
* C132: (1) lines_ of constant x end at hx_ (core_mesh.cpp:125, as in C73), so that in a core higher than wide the boundaries between pins are missing above hx_. (2) arc draws a line from the current point, here the middle of the pin, to the ring; it covers a line between sectors if their number is even, else it shows a boundary that is not there. The line between sectors for an angle is drawn to the opposite side (C70), which is the same for even numbers only (`C132_cyl_claim_false`, `C132_claim_false`)
* C133: (1) CurrentCorrections::post_ray subtracts the backward angular flux from surface_flux (correction_worker.hpp:136, 194), so that it is zero where the field is flat. (2) sn::Current adds the angular flux to surface_flux without the weight of the direction (sn_current_worker.hpp:92, 202 and others), so that in a flat field it is n psi where 4 pi psi is meant. (3) CMFD makes partial currents of it (cmfd.cpp:588-599), and SnSweeper::update_incoming_flux sets the incoming flux from them the first time it is called, wrong by the factor n / (4 pi) (`C133_moc_claim_false`, `C133_sn_claim_false`, `C133_flat_claim_false`, `C133_incoming_claim_false`)
* C134: (1) 6 * nx_ * ny_ * nz_ (mesh.cpp:97) is an int product; it overflows for meshes that have half as many surfaces as an int can number. (2) size_t total_size = bc_per_group_ * n_group (boundary_condition.cpp:62) is an int product assigned to a size_t; it overflows for large three-dimensional Sn problems with many groups, and get_face (boundary_condition.hpp:115) has the same limit (`C134_claim_false`, `C134_store_claim_false`)
* C135: (1) An unknown pin in a lattice is a std::out_of_range (lattice.cpp:64), which nothing catches: the program is aborted without a message of its own or a line in the log; core.cpp:94-101 has a handler for the same case. (2) H5Node does not catch exceptions of HDF5 when it opens a file: a missing data file passes the handler of sn_sweeper_cdd.hpp:56, and an output file that cannot be written ends the run without its message after the whole calculation. (3) A core with a prescribed boundary and Monte Carlo throws inside a parallel region (particle_pusher.cpp:308), which terminates the program. (4) material_lib.cpp:58, sn_sweeper.cpp:84 and core.cpp:76 write the cause to standard error only (`C135_claim_false`, `C135_mocc_claim_false`, `C135_cause_claim_false`)
* C136: (1) (*source_)[i] is the source of the group for which it was last assembled, and flux_1g_ of Sn (sn_sweeper.cpp:246) the flux of the group swept last; check_balance(group) combines them with cross sections and currents of any group. (2) sn_sweeper.cpp:246 takes (*xs_mesh_)[icell], the region with the number of the cell, while regions are in the order of the pins; with several lattices the cross sections are those of another pin. (3) With sub-planes the cross-section mesh has fewer regions than the mesh has pins, and MoC has fewer regions than the pins of the core: both functions read past the end (`C136_claim_false`, `C136_order_claim_false`)
* C138: the constructor from a FileScrubber does not check rows of the scattering table: a row too short gives uninitialised values (undefined behaviour) instead of an exception, further numbers are ignored, a word in place of the last number is taken as zero (`C138_claim_false`)
* C139: with sub-planes CMFD reads and writes surface fluxes and partial currents of macroplane k at plane k of the core, and leaves the planes above as they were, so that incoming fluxes are updated with the data of other macroplanes or not at all (`C139_claim_false`, `C139_plane_claim_false`)
* C140: after the last cycle a source for a cycle that is not run is drawn from the banked sites; if there are none this is undefined behaviour and the results of the run are lost (`C140_claim_false`)
* C141: the weight 1/tau - 1/(exp(tau) - 1) of the step characteristics is computed with cancellation: the error grows as 1/tau^2, the weight leaves the interval from zero to one for cells of an optical thickness of about 1e-8 and less, where averages of the flux become negative, and for thinner ones and void the code divides by zero (`C141_sc_claim_false`)
* C142: in doubles a converged flux does not quite keep its eigenvalue: k * t / t may differ from k in the last place (harmless) (`C142_still_claim_false`)
* C143: with the 2D3D sweeper the error of the fission source is not that of the regions counted: Sn values are compared, and the average is over the regions of both sweepers (`C143_pair_claim_false`)
* C144: the boundary values are sized by the quadrature of the Sn input, the correction factors by that of the data file if there is one, and the sweep runs over that of MoC; nothing compares them, so with different numbers of angles arrays are accessed out of bounds. With preserve_sn_quadrature factors of other directions are used (`C144_claim_false`)
* C145: in a plane with pins that are not square a MoC solution is not reproduced by the corrected Sn sweep, whatever the boundary values (the wrong widths of C39) (`C145_claim_false`)
* C146: with pins that are not square the Sn iteration of 2D3D drifts away from a converged MoC solution (consequence of the wrong widths of C39) (`C146_claim_false`)
* C147: the factor beta of a 2D3D sweep refers to cross sections homogenised with the flux before the last inner iteration of MoC, but the Sn sweep that follows homogenises again with the new flux; until the flux of a pin keeps its shape, collisions of Sn are not those of MoC. With n_inner = 0 no factors are made (`C147_claim_false`)
* C149: CMFD updates the tables that its mesh shares with the mesh of the Sn sweeper (2D3D), but neither the scattering matrices nor the counter of that mesh: until the next Sn sweep its removal cross sections do not belong to its matrices, and the scattering source of the first group after CMFD is made with matrices of an older flux than the fission source and the sweep (`C149_removal_claim_false`, `C149_expand_claim_false`, `C149_source_claim_false`)
* C150: a pin in which a group has no flux gets NaN cross sections in that group (the quotients by the flux integral are not guarded, those of scattering and spectrum are); in double precision a pin of one pure scatterer can get a negative removal cross section, because collision and scattering rate are products in different order (`C150_one_material_claim_false`, `C150_removal_claim_false`, `C150_finite_claim_false`)
* C151: draws that round up to one (C03) take their hits from the last site of the bank and go past its end (`C151_hits_claim_false`)
* C152: the current that CMFD stores carries an error relative to the diffusion current of the two cells; where the transport current is below 2^-53 of it, nothing of the transport current is left, even if the flux has not changed (`C152_current_claim_false`)
* C153: the pin boundaries of the core are summed pin by pin, the bounding box lattice by lattice. For three lattices of 17 pins of pitch 1.26 the last pin boundary is 64.25999999999998, the corner of the box 64.26000000000002; get_location_info of a point between them reads x_vec_ past its end (`C153_claim_false`, `C153_box_claim_false`)
* C154: with one fissile region error_psi_ is zero after every iteration, so convergence is decided by one difference of k. In a two-group problem (transport cross section 2, scattering 1 within the groups and 4 / (5 + exp(-2)) downwards, nu-fission 2 in the second group) the first sweep from the flat start raises the flux of the first group but leaves that of the second, so k = 1 twice; with min_iter at its default 0 solve() reports convergence with k = 1, the eigenvalue is 1.557 (`C154_claim_false`)
* C156: with correction factors 1/2 and 1 in two neighbouring cells (the same for both directions) a unit source in the first cell gives another flux in the second than the reverse; the scheme with fix-up, factors 1/2 and cross sections 1 and 10 in two cells on top of each other, gives 1/49 above for a unit source below and 1/40 below for one above (`C156_corrected_claim_false`, `C156_fixup_claim_false`)
* C160: one cell of unit size with unit source and cross section and cosines 1/2, vacuum around it: the scheme with parabolic moments (SnSweeper_CDD_PMB) gives another angular flux when the input is written in millimetres instead of centimetres (`C160_claim_false`)

## What is modelled and what is not

Modelled: `util/` (RNG, ULP comparison, brace lists and print_range, rational approximation, normalisation, timers, log output to two streams, HDF5
write sequences), `core/` (coarse mesh numbering and tracing, boundary conditions, angular quadratures and directions, geometry primitives, pin meshes,
lattices, planes, core mesh, scattering matrices, cross-section meshes and homogenisation, sources, exponential tables, CMFD, eigenvalue and fixed-source
solvers), `sweepers/` (MoC kernel, rays and their coarse data, modularisation, Sn sweeps and their cell equations, corrections of the 2D/3D method, pin
fluxes, Monte Carlo fission bank, tallies, collisions, histories), input (trees of names and attributes, defaults, amendments), visualisation files, and the driver.

Rounding of doubles: most claims are about exact numbers, with tolerances as parameters, so that the theorems say for which inputs they suffice.
Separate claims repeat the code with every operation rounded, in the order of the source text: random numbers and Monte Carlo tables (C128 to C130),
Sn cells (C141), sources and eigenvalue (C142), homogenised cross sections (C150), fission bank (C151), CMFD coefficients (C152), location of points
(C153), and others whose text says so.  Rounding is a monotone map, or rounding to nearest on the grid of doubles where error bounds are given.
Each of these says whether overflow is included.

Not modelled: parsing of XML text into trees, the HDF5 library and its file format (only the sequence of groups and data sets written), the contents
of Eigen and Blitz, other compilers' choices of evaluation order or fused operations, memory limits.  Wrap-around of counters is modelled where a claim
names it (C134, C25 excepted: the state counter of the cross-section mesh is unbounded).

## Seeded errors

`seeded/LOG.jsonl` has one line for each wrong program tried: the edited definition, the edit, the claim, the theorems that failed to prove
and those tightened.  An empty list `failed` is an edit that survived; its `note` says whether the theorem was too weak (then tightened and the edit
repeated) or the edited program is equivalent.  A `note` also marks edits that did not compile and therefore test nothing.
Survivors were kept outside of the log at first and were added later, so that the lines are not in the order of the attempts.
