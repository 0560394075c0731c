{
 "claims": [
  {
   "property": "C01",
   "status": "proved",
   "theorems": [
    "Verif.Rng.C01_draws_are_lcg",
    "Verif.Rng.C01_jump_ahead_draws",
    "Verif.Rng.C01_jump_ahead_state",
    "Verif.Rng.C01_jump_ahead_add"
   ],
   "note": "Proved for all 2^64 seeds and skip counts; also that draws are those of the documented 63-bit LCG and that jumps compose."
  },
  {
   "property": "C02",
   "status": "proved",
   "theorems": [
    "Verif.Rng.C02_full_period",
    "Verif.Rng.C02_period_exact"
   ],
   "note": "Proved: period exactly 2^63 for every seed (Hull-Dobell by 2-adic induction)."
  },
  {
   "property": "C03",
   "status": "partial",
   "theorems": [
    "Verif.Rng.C03_random_below_one_partial",
    "Verif.Rng.C03_random_reaches_one",
    "Verif.Rng.C03_random_claim_false",
    "Verif.Rng.C03_random_int_reaches_bound",
    "Verif.Rng.C03_random_int_partial"
   ],
   "note": "Violated by the code: after rounding to double random() returns exactly 1.0 for the top 512 states, reached from every seed; then random_int(n)=n. The _partial theorems show this is the exact exception set."
  },
  {
   "property": "C04",
   "status": "partial",
   "theorems": [
    "Verif.Rng.C04_histories_overlap",
    "Verif.Rng.C04_histories_repeat",
    "Verif.Rng.C04_claim_false",
    "Verif.Rng.C04_disjoint_partial"
   ],
   "note": "Violated: (id+offset)*10000 is a 32-bit product and wraps; histories 0 and 429497 overlap, histories 2^28 apart coincide. _partial: disjoint up to the wrap."
  },
  {
   "property": "C05",
   "status": "partial",
   "theorems": [
    "Verif.Fp.C05_undefined_iff",
    "Verif.Fp.C05_symmetric",
    "Verif.Fp.C05_reflexive",
    "Verif.Fp.C05_same_sign_partial",
    "Verif.Fp.C05_opposite_sign",
    "Verif.Fp.C05_equates_opposite_numbers",
    "Verif.Fp.C05_claim_false",
    "Verif.Fp.C05_value_lt_iff_rank_lt",
    "Verif.Fp.C05_fp_equiv",
    "Verif.Fp.C05_negative_zero_undefined"
   ],
   "note": "Violated: undefined behaviour (signed overflow) for -0.0 and tiny negative subnormals; 2+2^-21 and its negative compare equivalent. Exact behaviour proved for all bit patterns; fp_equiv is right wherever it is defined (its absolute test modelled with exact subtraction)."
  },
  {
   "property": "C06",
   "status": "partial",
   "theorems": [
    "Verif.Strings.C06_behaviour",
    "Verif.Strings.C06_roundtrip_partial",
    "Verif.Strings.C06_only_wellformed",
    "Verif.Strings.C06_digit_lost",
    "Verif.Strings.C06_claim_false",
    "Verif.Strings.C06_never_terminates"
   ],
   "note": "Violated: the character in front of an opening brace is never read (12{3} gives 1 and 3) and }{1 loops forever. _partial: exact round trip when naked text ends in white space; also proved that nothing malformed is ever accepted."
  },
  {
   "property": "C07",
   "status": "proved",
   "theorems": [
    "Verif.Strings.C07_ranges",
    "Verif.Strings.C07_text",
    "Verif.Strings.C07_unique",
    "Verif.Strings.C07_print"
   ],
   "note": "Proved for every boolean vector; the description is also shown to be unique."
  },
  {
   "property": "C08",
   "status": "partial",
   "theorems": [
    "Verif.Rational.C08_choice",
    "Verif.Rational.C08_denominator_bounded",
    "Verif.Rational.C08_tolerance",
    "Verif.Rational.C08_best_on_one_side_partial",
    "Verif.Rational.C08_exact",
    "Verif.Rational.C08_error_bound",
    "Verif.Rational.C08_not_closest",
    "Verif.Rational.C08_claim_false"
   ],
   "note": "Violated in one clause: the result is not always the closest fraction (3/10 with denominators up to 2). Proved: bounds, tolerance met whenever possible with the least denominator, exactness, error bound, closest on its side."
  },
  {
   "property": "C09",
   "status": "proved",
   "theorems": [
    "Verif.Normalize.C09_total",
    "Verif.Normalize.C09_ratios",
    "Verif.Normalize.C09_idempotent",
    "Verif.Normalize.C09_undefined_iff",
    "Verif.Normalize.C09_scaled_total",
    "Verif.Normalize.C09_scaled_zero_factor",
    "Verif.Normalize.C09_scale"
   ],
   "note": "Proved over any ordered field; undefined exactly for a zero sum. NormalizeScaled misses its documented total with a zero scale factor (proved)."
  },
  {
   "property": "C10",
   "status": "proved",
   "theorems": [
    "Verif.Mesh.C10_position_of_cell",
    "Verif.Mesh.C10_cell_of_position",
    "Verif.Mesh.C10_natural_order"
   ],
   "note": "Proved for every grid size."
  },
  {
   "property": "C11",
   "status": "proved",
   "theorems": [
    "Verif.Mesh.C11_surface_in_range",
    "Verif.Mesh.C11_same_number_iff_same_face",
    "Verif.Mesh.C11_no_gaps",
    "Verif.Mesh.C11_count"
   ],
   "note": "Proved for every grid size: bijection onto 0..n_surf-1, same number iff same geometric face."
  },
  {
   "property": "C12",
   "status": "proved",
   "theorems": [
    "Verif.Mesh.C12_neighbour_cells",
    "Verif.Mesh.C12_cells_touch_surface"
   ],
   "note": "Proved for every grid size."
  },
  {
   "property": "C13",
   "status": "proved",
   "theorems": [
    "Verif.Mesh.C13_normal",
    "Verif.Mesh.C13_area",
    "Verif.Mesh.C13_volume",
    "Verif.Mesh.C13_width_value",
    "Verif.Mesh.C13_width_count",
    "Verif.Mesh.C13_width_sum",
    "Verif.Mesh.C13_width_pos",
    "Verif.Mesh.C13_total_volume"
   ],
   "note": "Proved for every grid with arbitrary divisions."
  },
  {
   "property": "C14",
   "status": "proved",
   "theorems": [
    "Verif.Mesh.C14_neighbour",
    "Verif.Mesh.C14_step_back",
    "Verif.Mesh.C14_interface",
    "Verif.Mesh.C14_interface_throws"
   ],
   "note": "Proved for every grid size."
  },
  {
   "property": "C15",
   "status": "partial",
   "theorems": [
    "Verif.Mesh.C15_corner_missed",
    "Verif.Mesh.C15_claim_false",
    "Verif.Mesh.C15_boundary_surface_partial"
   ],
   "note": "Violated: a particle leaving through two faces at once is reported on the first only for the pairs west/south, bottom/east and north/top (C15_corner_missed). The _partial theorem is an exact characterisation: nothing wrong is reported, at least one face is whenever the particle leaves, and only the second of such a pair is lost."
  },
  {
   "property": "C16",
   "status": "proved",
   "theorems": [
    "Verif.BC.C16_total",
    "Verif.BC.C16_disjoint",
    "Verif.BC.C16_exact",
    "Verif.BC.C16_contiguous"
   ],
   "note": "Proved for every size table: positions are disjoint, fill the array exactly, and are contiguous per group and angle."
  },
  {
   "property": "C17",
   "status": "partial",
   "theorems": [
    "Verif.BC.C17_update_partial",
    "Verif.BC.C17_update_angle_partial",
    "Verif.BC.C17_entry_face",
    "Verif.BC.C17_conservation_partial",
    "Verif.BC.C17_claim_false"
   ],
   "note": "Violated: the loop breaks at the first empty face, so an ordinate with no X values never gets its Y values (witness proved). _partial: all size tables without such a gap, including the half-quadrature of the ray sweeper and conservation for all-reflective problems."
  },
  {
   "property": "C18",
   "status": "proved",
   "theorems": [
    "Verif.Quad.C18_reflect",
    "Verif.Quad.C18_involution",
    "Verif.Quad.C18_commute",
    "Verif.Quad.C18_reflect_surface"
   ],
   "note": "Proved for every octant size; also off surfaces."
  },
  {
   "property": "C19",
   "status": "partial",
   "theorems": [
    "Verif.Quad.C19_reverse_2d",
    "Verif.Quad.C19_reverse_2d_upper",
    "Verif.Quad.C19_reverse_3d_partial",
    "Verif.Quad.C19_not_involution",
    "Verif.Quad.C19_claim_false"
   ],
   "note": "Violated in three dimensions: octants 3, 4, 7 and 8 are not reversed, and reverse is never an involution there; the _partial theorem is an exact characterisation. Two dimensions proved."
  },
  {
   "property": "C20",
   "status": "proved",
   "theorems": [
    "Verif.Quad.C20_images",
    "Verif.Quad.C20_weights",
    "Verif.Quad.C20_first_moments",
    "Verif.Quad.C20_cross_moments",
    "Verif.Quad.C20_second_moments",
    "Verif.Quad.C20_unit",
    "Verif.Quad.C20_modify"
   ],
   "note": "Proved for every first-octant set, and for modify_angle."
  },
  {
   "property": "C21",
   "status": "partial",
   "theorems": [
    "Verif.Quad.LS.C21_low_orders_partial",
    "Verif.Quad.LS.C21_high_orders_partial",
    "Verif.Quad.LS.C21_unit_exact",
    "Verif.Quad.LS.C21_orders_unit_exact",
    "Verif.Quad.LS.C21_order12_not_symmetric",
    "Verif.Quad.LS.C21_order14_not_symmetric",
    "Verif.Quad.LS.C21_order16_ub",
    "Verif.Quad.LS.C21_nonpositive_ub",
    "Verif.Quad.LS.C21_rejects",
    "Verif.Quad.LS.C21_claim_false"
   ],
   "note": "Violated: orders 12 and 14 use the weight map of the next order and are not symmetric; order 16 and non-positive even orders read a table out of bounds. _partial: orders 2 to 10 in full, 12 and 14 except for symmetry."
  },
  {
   "property": "C22",
   "status": "partial",
   "theorems": [
    "Verif.Scatter.C22_as_vector_partial",
    "Verif.Scatter.C22_out_partial",
    "Verif.Scatter.C22_to_partial",
    "Verif.Scatter.C22_to_sound",
    "Verif.Scatter.C22_lost_exactly",
    "Verif.Scatter.C22_claim_false"
   ],
   "note": "Violated: negative entries outside the band of positive ones are dropped (witness proved; the library does not forbid them). _partial: all non-negative matrices of any size; what is lost is characterised exactly for the others."
  },
  {
   "property": "C23",
   "status": "proved",
   "theorems": [
    "Verif.Scatter.C23_values",
    "Verif.Scatter.C23_distribution"
   ],
   "note": "Proved for every non-negative matrix."
  },
  {
   "property": "C24",
   "status": "proved",
   "theorems": [
    "Verif.XS.C24_exactly_one",
    "Verif.XS.C24_only",
    "Verif.XS.C24_one_per_material",
    "Verif.XS.C24_count"
   ],
   "note": "Proved for every arrangement of pins and materials, both treatments (the loops are the same)."
  },
  {
   "property": "C25",
   "status": "partial",
   "theorems": [
    "Verif.XS.C25_expand_partial",
    "Verif.XS.C25_expand_after_update_partial",
    "Verif.XS.C25_split",
    "Verif.XS.C25_claim_false",
    "Verif.XS.C25_stale"
   ],
   "note": "Violated: expand(g); expand(g, split); expand(g) leaves the split values (proved for every mesh and splitting). _partial: every history without splitting, and every history with an update after the last splitting. Overflow of the int state counter not modelled."
  },
  {
   "property": "C26",
   "status": "proved",
   "theorems": [
    "Verif.XS.C26_rates",
    "Verif.XS.C26_scattering",
    "Verif.XS.C26_spectrum",
    "Verif.XS.C26_spectrum_sum",
    "Verif.XS.C26_area_rates",
    "Verif.XS.C26_area_scattering",
    "Verif.XS.C26_area_spectrum_sum",
    "Verif.XS.C26_area_spectrum"
   ],
   "note": "Proved for the flux-weighted and the volume-weighted versions, including the round trip through the sparse scattering matrix. kappa-fission is not a separate quantity in the code (xsf is the fission cross section)."
  },
  {
   "property": "C27",
   "status": "proved",
   "theorems": [
    "Verif.XS.C27_distribution",
    "Verif.XS.C27_selection",
    "Verif.XS.C27_in_range",
    "Verif.XS.C27_zero_not_selected",
    "Verif.XS.C27_chi",
    "Verif.XS.C27_chi_sample",
    "Verif.XS.C27_zero_draw"
   ],
   "note": "Proved: monotone, ends at one, selection intervals have the right width, zero reactions not selected; also the spectrum CDF. The bisection of std::lower_bound is modelled."
  },
  {
   "property": "C28",
   "status": "partial",
   "theorems": [
    "Verif.Source.C28_assemble_partial",
    "Verif.Source.C28_self_scatter",
    "Verif.Source.C28_conservation",
    "Verif.Source.C28_auxiliary",
    "Verif.Source.C28_claim_false",
    "Verif.Source.C28_external_out_of_bounds"
   ],
   "note": "Violated for the external source: an accepted (group, region) array is read as (region, group) and partly out of bounds (C28_claim_false, C28_external_out_of_bounds). _partial: fission, in-scatter, self-scatter and auxiliary contributions proved for all data; in-scatter plus self-scatter conserves out-scatter."
  },
  {
   "property": "C29",
   "status": "partial",
   "theorems": [
    "Verif.Sn.C29_dd",
    "Verif.Sn.C29_dd_2d",
    "Verif.Sn.C29_dd_sc",
    "Verif.Sn.C29_cdd_2d",
    "Verif.Sn.C29_cdd_dd",
    "Verif.Sn.C29_cdd_ff",
    "Verif.Sn.C29_cdd_fw",
    "Verif.Sn.C29_cdd_sc",
    "Verif.Sn.C29_sc_physical",
    "Verif.Sn.C29_average_nonneg",
    "Verif.Sn.C29_equilibrium",
    "Verif.Sn.C29_pmb_claim_false",
    "Verif.Sn.C29_pmb_partial",
    "Verif.Sn.C29_pmb_index",
    "Verif.Sn.C29_dd_closure",
    "Verif.Sn.C29_dd_2d_closure",
    "Verif.Sn.C29_cdd_2d_closure",
    "Verif.Sn.C29_cdd_dd_closure",
    "Verif.Sn.C29_cdd_ff_closure",
    "Verif.Sn.C29_cdd_fw_closure",
    "Verif.Sn.C29_sc_closure",
    "Verif.Sn.C29_sc_exact",
    "Verif.Sn.C29_sc_average_nonneg"
   ],
   "note": "Violated by the parabolic scheme SnSweeper_CDD_PMB except for cells of unit height; it also indexes dz outside the mesh. All other schemes proved for all inputs; step characteristics also for the real exponential."
  },
  {
   "property": "C30",
   "status": "proved",
   "theorems": [
    "Verif.Sn.C30_upwind",
    "Verif.Sn.C30_outgoing",
    "Verif.Sn.C30_frame",
    "Verif.Sn.C30_upwind_2d",
    "Verif.Sn.C30_global_balance",
    "Verif.Sn.C30_global_balance_2d",
    "Verif.Sn.C30_diamond_balance"
   ],
   "note": "Proved for every mesh, octant and cell scheme, in 2-D and 3-D: each cell reads exactly the outgoing face values of its upwind neighbours (or the boundary slot), the outgoing boundary slots hold the last cell values, unswept slots are untouched, and the octant-wide particle balance telescopes."
  },
  {
   "property": "C31",
   "status": "proved",
   "theorems": [
    "Verif.Moc.C31_beam",
    "Verif.Moc.C31_ends",
    "Verif.Moc.C31_ray",
    "Verif.Moc.C31_angle",
    "Verif.Moc.C31_balance",
    "Verif.Moc.C31_equilibrium",
    "Verif.Moc.C31_nonneg"
   ],
   "note": "Proved over an ordered field: per-ray and per-angle attenuation, plane balance, the equilibrium solution is reproduced, and fluxes stay nonnegative. The exponential is a parameter with the property ExpOk (instantiated with Real.exp); positivity needs tracked volume at most 4 pi times the region volume (supplied by C33); boundary slots are bijective (C32)."
  },
  {
   "property": "C32",
   "status": "proved",
   "theorems": [
    "Verif.Rays.C32_octant1",
    "Verif.Rays.C32_octant2",
    "Verif.Rays.C32_atan"
   ],
   "note": "Proved for every Nx, Ny, both octants: all rays are traced, entry slots are 0..Nx+Ny-1 in order, exit slots are a permutation, and each ray runs from the middle of its entry slot to the middle of its exit slot. Exact arithmetic; fp_equiv and REAL_FUZZ are parameters assumed smaller than half a ray spacing; core smaller than 1e12."
  },
  {
   "property": "C33",
   "status": "proved",
   "theorems": [
    "Verif.Moc.C33_flat",
    "Verif.Moc.C33_flat_any",
    "Verif.Moc.C33_angle",
    "Verif.Moc.C33_only_lengths",
    "Verif.Moc.C33_kernel",
    "Verif.Moc.C33_kernel_le"
   ],
   "note": "Proved over any field for FLAT and ANGLE; C33_kernel connects it to the tracked-volume hypothesis of C31. FLAT needs each region crossed in each angle for equality; C33_flat_any and C33_kernel_le cover uncrossed regions."
  },
  {
   "property": "C34",
   "status": "partial",
   "theorems": [
    "Verif.Rays.C34_trig_count",
    "Verif.Rays.C34_trig_spacing",
    "Verif.Rays.C34_trig_angle",
    "Verif.Rays.C34_rational_shallow_partial",
    "Verif.Rays.C34_rational_square_partial",
    "Verif.Rays.C34_pin_modular",
    "Verif.Rays.C34_flat_undefined",
    "Verif.Rays.C34_nonsquare",
    "Verif.Rays.C34_claim_false",
    "Verif.Rays.C34_wrong_angle"
   ],
   "note": "TRIG proved on all domains. RATIONAL proved on square domains for slopes of at least 0.002; the full claim is refuted on a 6 by 5 domain (C34_claim_false), the angle is missed on non-square domains (C34_wrong_angle) and slopes below 0.002 convert a NaN to int (C34_flat_undefined)."
  },
  {
   "property": "C35",
   "status": "proved",
   "theorems": [
    "Verif.Moc.C35_moc_sweep",
    "Verif.Moc.C35_moc_currents",
    "Verif.Sn.C35_sn_sweep"
   ],
   "note": "Proved: any distribution of rays over threads in any order gives the same MoC scalar flux and coarse currents in exact arithmetic, and any distribution of angles does so for the Sn sweep (Jacobi boundary, because Gauss-Seidel is disabled with more than one thread)."
  },
  {
   "property": "C36",
   "status": "partial",
   "theorems": [
    "Verif.PinFlux.C36_visits",
    "Verif.PinFlux.C36_get_plane",
    "Verif.PinFlux.C36_get_pin",
    "Verif.PinFlux.C36_sn_get_plane",
    "Verif.PinFlux.C36_moc_plane",
    "Verif.PinFlux.C36_moc_pin_partial",
    "Verif.PinFlux.C36_moc_refuses",
    "Verif.PinFlux.C36_moc_claim_false",
    "Verif.PinFlux.C36_sn_pin_partial",
    "Verif.PinFlux.C36_sn_one_region",
    "Verif.PinFlux.C36_sn_residual_claim_false",
    "Verif.PinFlux.C36_sn_plane_partial",
    "Verif.PinFlux.C36_sn_plane_residual"
   ],
   "note": "MoC PIN_PLANE proved. MoC PIN proved only without sub-planes and refuted otherwise (the homogenised flux is overwritten by the fall-through assignment). Sn flux part proved for PIN and PIN_PLANE; residual refuted (flux_(1,group), and always 0 for PIN_PLANE); a one-region mesh reads out of bounds."
  },
  {
   "property": "C37",
   "status": "partial",
   "theorems": [
    "Verif.Tl.C37_entry",
    "Verif.Tl.C37_column_entries",
    "Verif.Tl.C37_plain",
    "Verif.Tl.C37_throws",
    "Verif.Tl.C37_column",
    "Verif.Tl.C37_column_unrelaxed",
    "Verif.Tl.C37_split_partial",
    "Verif.Tl.C37_split_any",
    "Verif.Tl.C37_claim_false"
   ],
   "note": "Column conservation proved for every stack of macroplanes and every relaxation factor. Splitting proved for every positive flux; a zero flux with a negative source gives an infinite added removal (C37_claim_false)."
  },
  {
   "property": "C38",
   "status": "partial",
   "theorems": [
    "Verif.Moc.Expand.C38_radial_partial",
    "Verif.Moc.Expand.C38_axial_partial",
    "Verif.Moc.Expand.C38_axial_first",
    "Verif.Moc.Expand.C38_in_bounds",
    "Verif.Moc.Expand.C38_claim_false",
    "Verif.Moc.Expand.C38_claim_false_flux",
    "Verif.Moc.Expand.C38_density",
    "Verif.Moc.Expand.C38_density_uniform"
   ],
   "note": "Radial currents proved for every sub-plane layout. Violated for axial currents of the first pin column (the copied range is one surface too long; effect characterised exactly) and for the surface flux (never expanded). C38_density: the final density carries a factor dz(macroplane index)/dz(plane)."
  },
  {
   "property": "C39",
   "status": "partial",
   "theorems": [
    "Verif.Cmdo.C39_fw_bw",
    "Verif.Cmdo.C39_reproduce_partial",
    "Verif.Cmdo.C39_rays_partial",
    "Verif.Cmdo.C39_claim_false",
    "Verif.Cmdo.C39_chord",
    "Verif.Cmdo.C39_gather",
    "Verif.Cmdo.C39_factors_partial"
   ],
   "note": "Proved for square pins, starting from the MoC ray segments (no splitting); refuted for pins with dx != dy because the face averages divide by the wrong extent."
  },
  {
   "property": "C40",
   "status": "partial",
   "theorems": [
    "Verif.Cmfd.C40_row",
    "Verif.Cmfd.C40_reconstruct",
    "Verif.Cmfd.C40_zero_flux",
    "Verif.Cmfd.C40_reconstruct_mesh",
    "Verif.Cmfd.C40_fixed_point",
    "Verif.Cmfd.C40_total",
    "Verif.Cmfd.C40_partial_currents",
    "Verif.Cmfd.C40_surface_flux",
    "Verif.Cmfd.C40_boundary",
    "Verif.Cmfd.C40_coupling",
    "Verif.Cmfd.C40_coarse_axial",
    "Verif.Cmfd.C40_subplane_partial",
    "Verif.Cmfd.C40_subplane_radial",
    "Verif.Cmfd.C40_top_lost",
    "Verif.Cmfd.C40_inside",
    "Verif.Cmfd.C40_claim_false",
    "Verif.Cmfd.C40_row_faces",
    "Verif.Cmfd.C40_current",
    "Verif.Cmfd.C40_diffusivity",
    "Verif.Cmfd.C40_harmonic"
   ],
   "note": "Proved on every mesh without sub-planes: rows are balances, transport currents and surface fluxes are reproduced, the transport flux is a fixed point, interior currents cancel, partial currents. With sub-planes the axial current at the top of the core is replaced by zero (C40_claim_false) and interior axial surfaces get the bottom current."
  },
  {
   "property": "C41",
   "status": "partial",
   "theorems": [
    "Verif.Mc.C41_shrink_partial",
    "Verif.Mc.C41_grow_partial",
    "Verif.Mc.C41_grow_choice",
    "Verif.Mc.C41_shrink_one",
    "Verif.Mc.C41_shrink_steps",
    "Verif.Mc.C41_completes_partial",
    "Verif.Mc.C41_out_of_bounds",
    "Verif.Mc.C41_claim_false",
    "Verif.Mc.C41_empty_undefined"
   ],
   "note": "Whenever resize completes the result is right for every random sequence (both directions, exact number of draws). Violated for 512 of the 2^63 generator states, reached from every seed: random_int(n) returns n and the access is one past the end; resizing an empty bank is undefined as well."
  },
  {
   "property": "C42",
   "status": "proved",
   "theorems": [
    "Verif.Mc.C42_sort_stable",
    "Verif.Mc.C42_stable_sort_unique",
    "Verif.Mc.C42_interleaving",
    "Verif.Mc.C42_bank",
    "Verif.Mc.C42_cycle",
    "Verif.Mc.C42_run",
    "Verif.Mc.C42_totals"
   ],
   "note": "Proved for every number of threads, every distribution of histories and every order of the appends, through sorting, resizing, renumbering and any number of cycles. The result of std::stable_sort is shown to be determined by its guarantee."
  },
  {
   "property": "C43",
   "status": "partial",
   "theorems": [
    "Verif.Mc.C43_located",
    "Verif.Mc.C43_bounds_partial",
    "Verif.Mc.C43_value",
    "Verif.Mc.C43_zero_iff",
    "Verif.Mc.C43_max_iff",
    "Verif.Mc.C43_claim_false",
    "Verif.Mc.C43_guard_out_of_bounds"
   ],
   "note": "Proved (bounds, zero iff one pin, maximal iff even) for sites not on the west, south or bottom face of the core; a site on such a face throws or is counted in another pin (C43_claim_false). The bounds test in the code is off by one (C43_guard_out_of_bounds)."
  },
  {
   "property": "C44",
   "status": "partial",
   "theorems": [
    "Verif.Mc.C44_scalar_mean",
    "Verif.Mc.C44_scalar_order",
    "Verif.Mc.C44_scalar_variance",
    "Verif.Mc.C44_scalar_deviation",
    "Verif.Mc.C44_scalar_single",
    "Verif.Mc.C44_scalar_claim_false",
    "Verif.Mc.C44_spatial_mean",
    "Verif.Mc.C44_spatial_order",
    "Verif.Mc.C44_spatial_deviation_partial",
    "Verif.Mc.C44_spatial_deviation_unit_partial",
    "Verif.Mc.C44_spatial_claim_false"
   ],
   "note": "Mean, variance, deviation and order independence proved for the scalar tally with one score per unit weight; several scores per unit weight can give a negative variance (refuted). The relative deviation of the spatial tally is the right one times the square root of the normalisation (exact value proved; independence of the normalisation refuted)."
  },
  {
   "property": "C45",
   "status": "partial",
   "theorems": [
    "Verif.Solver.C45_inactive_partial",
    "Verif.Solver.C45_total",
    "Verif.Solver.C45_never",
    "Verif.Solver.C45_claim_false",
    "Verif.Solver.C45_overflow"
   ],
   "note": "Violated for every input: one active cycle too many is run (C45_never). The number and numbering of the inactive cycles is right."
  },
  {
   "property": "C46",
   "status": "partial",
   "theorems": [
    "Verif.Solver.C46_max",
    "Verif.Solver.C46_min",
    "Verif.Solver.C46_stops_only_converged",
    "Verif.Solver.C46_stops_when_converged",
    "Verif.Solver.C46_dumps_partial",
    "Verif.Solver.C46_dumps_exactly_partial",
    "Verif.Solver.C46_dumps_claim_false",
    "Verif.Solver.C46_zero_request"
   ],
   "note": "Iteration limits and stopping rule proved for every convergence history. Dumps proved for positive requests without repetition; refuted otherwise (a repeated, zero or negative request blocks all later ones)."
  },
  {
   "property": "C47",
   "status": "proved",
   "theorems": [
    "Verif.Source.C47_fission_source",
    "Verif.Source.C47_source_kept",
    "Verif.Source.C47_invariant"
   ],
   "note": "Proved for the eigenvalue step without CMFD, for every sweep result."
  },
  {
   "property": "C48",
   "status": "proved",
   "theorems": [
    "Verif.Core.C48_partition",
    "Verif.Core.C48_order",
    "Verif.Core.C48_heights",
    "Verif.Core.C48_moc_index",
    "Verif.Core.C48_stacking",
    "Verif.Core.C48_same_lattice",
    "Verif.Core.C48_z_vec",
    "Verif.Core.C48_assembly_heights",
    "Verif.Core.C48_empty_undefined"
   ],
   "note": "Proved for every specification the input reader accepts (no empty block, sizes adding up to the number of planes): partition, order, heights, agreement with the bisection of the MoC sweeper, stacking order of the lattices and the same-lattice check. An empty top block would be an access out of bounds, but explode_braces rejects it."
  },
  {
   "property": "C49",
   "status": "partial",
   "theorems": [
    "Verif.Core.C49_map",
    "Verif.Core.C49_map_count",
    "Verif.Core.C49_map_unknown",
    "Verif.Core.C49_first_regs",
    "Verif.Core.C49_locate_partial",
    "Verif.Core.C49_locate_interior",
    "Verif.Core.C49_locate_interface",
    "Verif.Core.C49_locate_upper",
    "Verif.Core.C49_locate_lower",
    "Verif.Core.C49_claim_false",
    "Verif.Core.C49_interfaces",
    "Verif.Core.C49_lattice",
    "Verif.Core.C49_plane",
    "Verif.Core.C49_plane_undefined"
   ],
   "note": "proved for the assembly/lattice map and for point location away from a lower face; refuted: a point on the lower face with a non-positive direction is assigned to the last pin, and on a lattice boundary the differing relative tolerances of core and lattice make Plane::at_point read past the end of the coordinates"
  },
  {
   "property": "C50",
   "status": "partial",
   "theorems": [
    "Verif.Core.C50_accuracy_partial",
    "Verif.Core.C50_absolute_partial",
    "Verif.Core.C50_nodes_partial",
    "Verif.Core.C50_outside",
    "Verif.Core.C50_monotone_partial",
    "Verif.Core.C50_upper_undefined",
    "Verif.Core.C50_claim_false",
    "Verif.Core.C50_moc",
    "Verif.Core.C50_unsafe_undefined"
   ],
   "note": "error bound proved below the upper end of the table (relative error below 1.3e-7 on [-10,0) for the table of the MoC sweeper); refuted at the upper end, where the interpolation reads one element past the table"
  },
  {
   "property": "C51",
   "status": "proved",
   "theorems": [
    "Verif.Input.C51_exact",
    "Verif.Input.C51_applicable",
    "Verif.Input.C51_components",
    "Verif.Input.C51_components_join",
    "Verif.Input.C51_argument",
    "Verif.Input.C51_arg_exact",
    "Verif.Input.C51_in_turn",
    "Verif.Input.C51_last_wins"
   ],
   "note": "proved: success changes exactly one attribute or text, reached by the first child of each name; succeeds exactly when applicable; failure is before any change"
  },
  {
   "property": "C52",
   "status": "partial",
   "theorems": [
    "Verif.Driver.C52_interrupt_partial",
    "Verif.Driver.C52_run",
    "Verif.Driver.C52_early_undefined",
    "Verif.Driver.C52_during_output_undefined",
    "Verif.Driver.C52_second_run_stale",
    "Verif.Driver.C52_claim_false",
    "Verif.Driver.C52_bad_input"
   ],
   "note": "proved when interrupted after the solver has been fetched and outside the output; refuted before that (null pointer) and while the output is written (file opened twice); a second run in the same process writes stale results"
  },
  {
   "property": "C53",
   "status": "proved",
   "theorems": [
    "Verif.BC.C53_scalar",
    "Verif.BC.C53_scalar_layout",
    "Verif.BC.C53_spectrum"
   ],
   "note": "Proved for every size table. initialize_spectrum ignores the boundary types (also vacuum faces get the spectrum), shown by an example."
  },
  {
   "property": "C54",
   "status": "partial",
   "theorems": [
    "Verif.Scatter.C54_claim_false",
    "Verif.Scatter.C54_eq_partial",
    "Verif.Scatter.C54_copy"
   ],
   "note": "Violated: operator== ignores the row bounds, two different 3x3 matrices compare equal. _partial: equal matrices compare equal, and matrices that compare equal have equal total outscatter; copies proved equal."
  },
  {
   "property": "C55",
   "status": "partial",
   "theorems": [
    "Verif.Source.C55_self_scatter_partial",
    "Verif.Source.C55_error",
    "Verif.Source.C55_claim_false"
   ],
   "note": "Violated: the given cross sections are only tested for presence; the stored transport cross section divides. _partial: when the given array equals the stored one; the relative error is characterised exactly otherwise."
  },
  {
   "property": "C56",
   "status": "partial",
   "theorems": [
    "Verif.Quad.LS.C56_low_orders_partial",
    "Verif.Quad.LS.C56_sixth",
    "Verif.Quad.LS.C56_second",
    "Verif.Quad.LS.C56_order10_fourth",
    "Verif.Quad.LS.C56_high_second",
    "Verif.Quad.LS.C56_claim_false"
   ],
   "note": "proved for orders 4, 6, 8 (second moments also for 2 and 10); refuted: order 10 has fourth moments too small by 7e-4, orders 12 and 14 have anisotropic second moments, order 16 is undefined"
  },
  {
   "property": "C57",
   "status": "partial",
   "theorems": [
    "Verif.Cmfd.C57_interior",
    "Verif.Cmfd.C57_reflect",
    "Verif.Cmfd.C57_vacuum_high_partial",
    "Verif.Cmfd.C57_vacuum_low",
    "Verif.Cmfd.C57_claim_false",
    "Verif.Cmfd.C57_data"
   ],
   "note": "proved between cells, on reflective sides and on vacuum sides at the high end; refuted on vacuum sides at the low end, where s_tilde takes the weight of the outside and a (usually negative) partial current enters"
  },
  {
   "property": "C58",
   "status": "proved",
   "theorems": [
    "Verif.Cmfd.C58_offdiag",
    "Verif.Cmfd.C58_row_sum",
    "Verif.Cmfd.C58_nonneg",
    "Verif.Cmfd.C58_unique",
    "Verif.Cmfd.C58_couplings",
    "Verif.Cmfd.C58_symmetric"
   ],
   "note": "proved for every mesh; couplings non-negative from positive diffusion coefficients, then signs, row sums, symmetry, non-negativity and uniqueness"
  },
  {
   "property": "C59",
   "status": "partial",
   "theorems": [
    "Verif.Cmfd.C59_k",
    "Verif.Cmfd.C59_iteration",
    "Verif.Cmfd.C59_count_partial",
    "Verif.Cmfd.C59_zero_residual",
    "Verif.Cmfd.C59_stops",
    "Verif.Cmfd.C59_first_change",
    "Verif.Cmfd.C59_later_change",
    "Verif.Cmfd.C59_nonneg",
    "Verif.Cmfd.C59_fixed",
    "Verif.Cmfd.C59_claim_false",
    "Verif.Cmfd.C59_production_partial",
    "Verif.Cmfd.C59_production_shape_partial",
    "Verif.Cmfd.C59_production_claim_false"
   ],
   "note": "the linear solver is a parameter. Proved: telescoping of k, what an iteration does, stopping rule (with an initial residual of zero it never applies, C59_zero_residual), signs, a solution is kept. Refuted: max_iter + 1 iterations are made; the fission sums carry no cell volumes, so k is scaled by the production ratio only on uniform meshes or for unchanged shape"
  },
  {
   "property": "C60",
   "status": "partial",
   "theorems": [
    "Verif.Solver.C60_converges",
    "Verif.Solver.C60_limit_partial",
    "Verif.Solver.C60_rejected",
    "Verif.Solver.C60_negative_accepted",
    "Verif.Solver.C60_nan_silent",
    "Verif.Solver.C60_claim_false"
   ],
   "note": "proved for positive limits and residuals that are numbers; refuted: max_iter_ is a size_t, so a negative or missing limit passes the check and means more than 2^63 iterations, and a last residual that is not a number suppresses the message"
  },
  {
   "property": "C61",
   "status": "partial",
   "theorems": [
    "Verif.Core.C61_value",
    "Verif.Core.C61_attained",
    "Verif.Core.C61_bound_partial",
    "Verif.Core.C61_exceeded",
    "Verif.Core.C61_claim_false"
   ],
   "note": "exact value proved (cosh(dx/2) - 1, the error at the middle of every cell) and the true error is at most exp(dx) times it; refuted as a bound: every cell of every table has arguments with a larger error"
  },
  {
   "property": "C62",
   "status": "partial",
   "theorems": [
    "Verif.Geom.C62_parallel",
    "Verif.Geom.C62_on_both",
    "Verif.Geom.C62_found_partial",
    "Verif.Geom.C62_none",
    "Verif.Geom.C62_symm",
    "Verif.Geom.C62_claim_false"
   ],
   "note": "sound, and complete for segments that are not parallel; order of arguments irrelevant; refuted for overlapping segments on one straight line, which give no intersection"
  },
  {
   "property": "C63",
   "status": "partial",
   "theorems": [
    "Verif.Geom.C63_sound",
    "Verif.Geom.C63_complete",
    "Verif.Geom.C63_count_partial",
    "Verif.Geom.C63_order",
    "Verif.Geom.C63_assert",
    "Verif.Geom.C63_tangent_twice",
    "Verif.Geom.C63_flags",
    "Verif.Geom.C63_claim_false"
   ],
   "note": "points returned are exactly those of the circle strictly within the segment, in order; the return value counts the assignments; the condition for assert(false) is characterised; refuted: the test for tangents never succeeds so a tangent gives the same point twice, and ok is true for points never assigned"
  },
  {
   "property": "C64",
   "status": "proved",
   "theorems": [
    "Verif.Geom.C64_circle_hit",
    "Verif.Geom.C64_circle_miss",
    "Verif.Geom.C64_circle_surface",
    "Verif.Geom.C64_line_hit",
    "Verif.Geom.C64_line_miss",
    "Verif.Geom.C64_line_coincident",
    "Verif.Geom.C64_box",
    "Verif.Geom.C64_box_corners"
   ],
   "note": "proved in an ordered field (circle: over the reals) for points outside of the tolerance band; a Line is treated by the code as infinite, which is what the theorems state"
  },
  {
   "property": "C65",
   "status": "partial",
   "theorems": [
    "Verif.PinMesh.C65_accepted",
    "Verif.PinMesh.C65_areas",
    "Verif.PinMesh.C65_cell_partial",
    "Verif.PinMesh.C65_outside",
    "Verif.PinMesh.C65_left_edge",
    "Verif.PinMesh.C65_claim_false"
   ],
   "note": "accepted input, areas and location proved; location refuted on the left and bottom edge, where the region is in the row below or -1"
  },
  {
   "property": "C66",
   "status": "proved",
   "theorems": [
    "Verif.PinMesh.C66_region",
    "Verif.PinMesh.C66_leaving",
    "Verif.PinMesh.C66_range",
    "Verif.PinMesh.C66_beyond_undefined"
   ],
   "note": "proved for points resolved by the tolerances; beyond the right or top edge moving inwards, hx_ is read past its end (undefined behaviour, stated as an outcome)"
  },
  {
   "property": "C67",
   "status": "partial",
   "theorems": [
    "Verif.PinMesh.C67_accepted",
    "Verif.PinMesh.C67_built_partial",
    "Verif.PinMesh.C67_material_radii",
    "Verif.PinMesh.C67_radii_order",
    "Verif.PinMesh.C67_areas_sum",
    "Verif.PinMesh.C67_areas_nonneg",
    "Verif.PinMesh.C67_equal_area",
    "Verif.PinMesh.C67_fsrs",
    "Verif.PinMesh.C67_zero_rings",
    "Verif.PinMesh.C67_claim_false",
    "Verif.PinMesh.C67_no_sectors",
    "Verif.PinMesh.C67_eighths",
    "Verif.PinMesh.C67_sixths"
   ],
   "note": "proved for intended input; refuted for what is accepted: zero rings for a material loses its radius, zero or negative numbers of sectors; with six sectors the outer regions get areas that are not theirs"
  },
  {
   "property": "C68",
   "status": "partial",
   "theorems": [
    "Verif.PinMesh.C68_angle_partial",
    "Verif.PinMesh.C68_angle_axis",
    "Verif.PinMesh.C68_angle_claim_false",
    "Verif.PinMesh.C68_region_partial",
    "Verif.PinMesh.C68_outside",
    "Verif.PinMesh.C68_positive_axis",
    "Verif.PinMesh.C68_claim_false"
   ],
   "note": "proved off the x axis; refuted on it: on the positive x axis the region belongs to the next ring or is n_reg, and on the negative one Point2::alpha is 3 pi"
  },
  {
   "property": "C69",
   "status": "partial",
   "theorems": [
    "Verif.PinMesh.C69_interior",
    "Verif.PinMesh.C69_line",
    "Verif.PinMesh.C69_near_line",
    "Verif.PinMesh.C69_side_partial",
    "Verif.PinMesh.C69_wrong_side",
    "Verif.PinMesh.C69_claim_false",
    "Verif.PinMesh.C69_positive_axis",
    "Verif.PinMesh.C69_negative_axis",
    "Verif.PinMesh.C69_ring",
    "Verif.PinMesh.C69_ring_side",
    "Verif.PinMesh.C69_region",
    "Verif.PinMesh.C69_leaving"
   ],
   "note": "ring proved except for tangent directions; sector proved if the angles differ by less than pi, and proved wrong in all cases where they differ by more; negative x axis and directions along the positive x axis are wrong too"
  },
  {
   "property": "C70",
   "status": "partial",
   "theorems": [
    "Verif.Geom.C70_from_boundary_partial",
    "Verif.Geom.C70_centre_x",
    "Verif.Geom.C70_centre_y",
    "Verif.Geom.C70_corner",
    "Verif.Geom.C70_claim_false"
   ],
   "note": "proved for starts on the left edge (mirror images alike); from the centre proved to give the point behind; towards a corner proved to give no point; claim refuted"
  },
  {
   "property": "C71",
   "status": "partial",
   "theorems": [
    "Verif.PinMesh.C71_length",
    "Verif.PinMesh.C71_pieces_partial",
    "Verif.PinMesh.C71_claim_false"
   ],
   "note": "length proved for upward rays and any comparison of points; pieces and regions proved for exact comparison; refuted for horizontal rays, whose points are not ordered (they do not occur: the ray angles are never 0)"
  },
  {
   "property": "C72",
   "status": "partial",
   "theorems": [
    "Verif.PinMesh.C72_length",
    "Verif.PinMesh.C72_pieces_partial",
    "Verif.PinMesh.C72_lines",
    "Verif.PinMesh.C72_no_corner",
    "Verif.PinMesh.C72_eight",
    "Verif.PinMesh.C72_claim_false"
   ],
   "note": "length proved for upward rays; pieces proved for an even number of sectors, ends outside of all rings, rays not through the centre and exact comparison; the lines of the constructor are proved complete for 2, 4 and 6 sectors and proved missing on the diagonals for 8; refuted for an end on a ring"
  },
  {
   "property": "C73",
   "status": "partial",
   "theorems": [
    "Verif.Mesh.C73_divides_partial",
    "Verif.Mesh.C73_claim_false"
   ],
   "note": "proved for meshes that are not longer in y than in x; refuted for longer ones: the grid lines of constant x are given the length hx_ instead of hy_, and crossings above are not found"
  },
  {
   "property": "C74",
   "status": "proved",
   "theorems": [
    "Verif.Mesh.C74_cross",
    "Verif.Mesh.C74_start",
    "Verif.Mesh.C74_end",
    "Verif.Mesh.C74_corner",
    "Verif.Mesh.C74_path"
   ],
   "note": "proved for all octants with exact recognition of grid lines; at a corner of the mesh there are two surfaces of which the first already leads out (C74_corner), which is why it is excluded"
  },
  {
   "property": "C75",
   "status": "partial",
   "theorems": [
    "Verif.Moc.C75_weights",
    "Verif.Moc.C75_balance_partial",
    "Verif.Moc.C75_claim_false"
   ],
   "note": "proved for fewer than 256 segments in every piece, also for rays through corners of cells; refuted without: the numbers of segments are kept in eight bits and MAX_NSEG is never checked. Weights of the two directions proved to be those needed"
  },
  {
   "property": "C76",
   "status": "partial",
   "theorems": [
    "Verif.Incoming.C76_sn",
    "Verif.Incoming.C76_ratio",
    "Verif.Incoming.C76_same",
    "Verif.Incoming.C76_first_partial",
    "Verif.Incoming.C76_first_claim_false",
    "Verif.Incoming.C76_moc_partial",
    "Verif.Incoming.C76_moc_first",
    "Verif.Incoming.C76_moc_bottom",
    "Verif.Incoming.C76_moc_claim_false",
    "Verif.Incoming.C76_moc_planes"
   ],
   "note": "Sn ratio update proved for every mesh and direction. Refuted: the first Sn update takes the partial current out of the mesh (sense is inverted; what it does is proved), and the MoC update passes the number of the cell where that of a surface is needed, which is the bottom surface of the cell in the lowest plane"
  },
  {
   "property": "C77",
   "status": "proved",
   "theorems": [
    "Verif.Sn.C77_current",
    "Verif.Sn.C77_balance",
    "Verif.Sn.C77_total",
    "Verif.Sn.C77_current_2d",
    "Verif.Sn.C77_balance_2d"
   ],
   "note": "proved in three and two dimensions for every face and every balanced cell equation (balance of the cell equations themselves is C29); currents and scalar flux of the whole sweep proved to balance by induction over the ordinates. surface_flux is not part of the claim: it is the sum of angular fluxes without quadrature weights"
  },
  {
   "property": "C78",
   "status": "proved",
   "theorems": [
    "Verif.Dir.C78_of_cosines",
    "Verif.Dir.C78_of_angles",
    "Verif.Dir.C78_reflect",
    "Verif.Dir.C78_reflect_twice",
    "Verif.Dir.C78_octant",
    "Verif.Dir.C78_upwind",
    "Verif.Dir.C78_isotropic",
    "Verif.Dir.C78_axis",
    "Verif.Dir.C78_modify"
   ],
   "note": "proved over the reals. For directions parallel to the z axis the azimuth is 0/0 and the reciprocal sine 1/0 (C78_axis)"
  },
  {
   "property": "C79",
   "status": "partial",
   "theorems": [
    "Verif.Mc.C79_distance_partial",
    "Verif.Mc.C79_distance_claim_false",
    "Verif.Mc.C79_move_alike",
    "Verif.Mc.C79_move_partial",
    "Verif.Mc.C79_move_exact",
    "Verif.Mc.C79_move_claim_false",
    "Verif.Mc.C79_inside_partial",
    "Verif.Mc.C79_inner",
    "Verif.Mc.C79_inside_claim_false",
    "Verif.Mc.C79_pushed_out"
   ],
   "note": "distance proved for particles not on a face they move out of, and refuted there: a zero distance is replaced by the largest number. move goes further than the distance, by one to two bumps per moving coordinate. Crossing proved for all six faces away from edges of the core and between pins; refuted at edges: with two reflective sides only one is reported (C15) and the particle is left outside, alive; next to an edge the bump after a reflection pushes it out (C79_pushed_out)"
  },
  {
   "property": "C80",
   "status": "partial",
   "theorems": [
    "Verif.Mc.C80_scatter",
    "Verif.Mc.C80_fission",
    "Verif.Mc.C80_capture",
    "Verif.Mc.C80_number",
    "Verif.Mc.C80_mean",
    "Verif.Mc.C80_estimator",
    "Verif.Mc.C80_claim_false"
   ],
   "note": "proved for positive random numbers, with the mean as an integral over the random number; refuted for a random number that is exactly zero, which selects scattering also where there is none (the group is then sampled from a distribution divided by zero). Random numbers that are drawn are never used twice (positions in the stream are part of the theorems)"
  },
  {
   "property": "C81",
   "status": "proved",
   "theorems": [
    "Verif.Mc.C81_pass",
    "Verif.Mc.C81_history",
    "Verif.Mc.C81_start",
    "Verif.Mc.C81_total",
    "Verif.Mc.C81_in_pin",
    "Verif.Mc.C81_constant",
    "Verif.Mc.C81_ended"
   ],
   "note": "proved by induction over the passes of the loop, with a limit on their number as the only bound and the same result for all larger limits once the history has ended (C81_ended); location of points and distances within pins are parameters"
  },
  {
   "property": "C82",
   "status": "proved",
   "theorems": [
    "Verif.PinMesh.C82_rect",
    "Verif.PinMesh.C82_rect_region",
    "Verif.PinMesh.C82_outside",
    "Verif.PinMesh.C82_cyl",
    "Verif.PinMesh.C82_cyl_outside"
   ],
   "note": "proved over the reals for cylindrical and any ordered field for rectangular pins, from C64 and the intermediate value theorem; the numbers of the surfaces and the sector lines (C72) are parameters. Sector lines act along their whole length, which adds no stops as sectors come in even numbers (C67_accepted)"
  },
  {
   "property": "C83",
   "status": "partial",
   "theorems": [
    "Verif.Core.C83_lattice",
    "Verif.Core.C83_count",
    "Verif.Core.C83_position",
    "Verif.Core.C83_bijective",
    "Verif.Core.C83_periodic",
    "Verif.Core.C83_list",
    "Verif.Core.C83_core_position",
    "Verif.Core.C83_pitches",
    "Verif.Core.C83_conform",
    "Verif.Core.C83_boundary",
    "Verif.Core.C83_origin",
    "Verif.Core.C83_claim_false"
   ],
   "note": "proved for planes whose lattices have the same number of pin columns (rows) as the others in their column (row); refuted without: only the outer dimensions of lattices are compared, and a lattice of one wide pin under one of four narrow pins is accepted with more pins than positions"
  },
  {
   "property": "C84",
   "status": "proved",
   "theorems": [
    "Verif.Core.C84_equiv",
    "Verif.Core.C84_unique",
    "Verif.Core.C84_shared"
   ],
   "note": "proved by induction over the planes; no read outside of a vector occurs"
  },
  {
   "property": "C85",
   "status": "proved",
   "theorems": [
    "Verif.Core.C85_pin",
    "Verif.Core.C85_pin_plane",
    "Verif.Core.C85_true",
    "Verif.Core.C85_consistent",
    "Verif.Core.C85_true_sum",
    "Verif.Core.C85_true_count",
    "Verif.Core.C85_plane",
    "Verif.Core.C85_plane_sum"
   ],
   "note": "proved for all four treatments; that the areas of a mesh add up to the area of the pin is C65 and C67, that unique planes have the regions of the planes they stand for is C84"
  },
  {
   "property": "C86",
   "status": "partial",
   "theorems": [
    "Verif.Core.C86_plane",
    "Verif.Core.C86_plane_interface",
    "Verif.Core.C86_plane_top",
    "Verif.Core.C86_plane_bottom",
    "Verif.Core.C86_plane_above",
    "Verif.Core.C86_location",
    "Verif.Core.C86_pinmesh",
    "Verif.Core.C86_claim_false",
    "Verif.Core.C86_lower_face"
   ],
   "note": "proved for points further from the faces of their pin than the tolerance, for get_location_info and for the look-up used for rays (C86_pinmesh); plane_index also on interfaces and at bottom and top, with a read past the end above the core (C86_plane_above). Refuted on interfaces between pins: with a positive direction mesh and local point are those of the pin above, position and corners those of the pin below. On the faces x=0 and y=0 of the core the corners are read before the beginning of the vector (C86_lower_face)"
  },
  {
   "property": "C87",
   "status": "partial",
   "theorems": [
    "Verif.Core.C87_constant",
    "Verif.Core.C87_claim_false"
   ],
   "note": "refuted: the point is replaced by the origin of the pin before it is passed to find_reg; the result is proved to be the same for all points of a pin (C87_constant)"
  },
  {
   "property": "C88",
   "status": "partial",
   "theorems": [
    "Verif.Quad.Product.C88_ends",
    "Verif.Quad.Product.C88_near",
    "Verif.Quad.Product.C88_computed",
    "Verif.Quad.Product.C88_computed_octant",
    "Verif.Quad.Product.C88_limit",
    "Verif.Quad.Product.C88_limit_sum",
    "Verif.Quad.Product.C88_computed_integrates",
    "Verif.Quad.Product.C88_computed_moments",
    "Verif.Quad.Product.C88_yamamoto",
    "Verif.Quad.Product.C88_chebyshev",
    "Verif.Quad.Product.C88_azimuth_moments",
    "Verif.Quad.Product.C88_residual",
    "Verif.Quad.Product.C88_gauss",
    "Verif.Quad.Product.C88_stays",
    "Verif.Quad.Product.C88_product",
    "Verif.Quad.Product.C88_chebyshev_gauss",
    "Verif.Quad.Product.C88_chebyshev_yamamoto",
    "Verif.Quad.Product.C88_rejected",
    "Verif.Quad.Product.C88_claim_false"
   ],
   "note": "the exact rule is that of the zeros of the Legendre polynomials (shown to exist for every order), which are a fixed point of the iteration (C88_gauss, C88_stays). The iteration of the code is proved to end from its initial guess for every number of polar angles and every positive tolerance (C88_ends; exact arithmetic), its points to be within a hundred tolerances of the zeros and in their order (C88_near, C88_computed); so the directions as computed are inside the octant with positive weights of sum one for every tolerance (C88_computed_octant), and the moments are exact up to an error that goes to zero with the tolerance (C88_limit, C88_computed_integrates, C88_computed_moments), without a rate. The comment that the weights of the Gauss rule sum to one is refuted: they sum to one half, and only the normalisation in GenProduct that is called unnecessary makes up for it"
  },
  {
   "property": "C89",
   "status": "proved",
   "theorems": [
    "Verif.Quad.Product.C89_nearest",
    "Verif.Quad.Product.C89_update",
    "Verif.Quad.Product.C89_kept",
    "Verif.Quad.Product.C89_unchanged",
    "Verif.Quad.Product.C89_renumbered"
   ],
   "note": "proved, with fp_equiv_ulp a parameter that tells the azimuths apart; C89_renumbered shows that azimuths in another order are sorted, so that indices of angles change"
  },
  {
   "property": "C90",
   "status": "partial",
   "theorems": [
    "Verif.Quad.User.C90_accepted",
    "Verif.Quad.User.C90_complete",
    "Verif.Quad.User.C90_on_axis",
    "Verif.Quad.User.C90_negative_polar",
    "Verif.Quad.User.C90_vertical",
    "Verif.Quad.User.C90_claim_false"
   ],
   "note": "proved except for the last sentence, which is refuted: zero cosines pass, so that images in different octants coincide (C90_on_axis); a negative polar angle with an azimuth in the third quadrant passes with a negative reciprocal sine (C90_negative_polar); a missing polar angle means a vertical direction with an infinite one (C90_vertical)"
  },
  {
   "property": "C91",
   "status": "partial",
   "theorems": [
    "Verif.Quad.User.C91_round_trip",
    "Verif.Quad.User.C91_constructed",
    "Verif.Quad.User.C91_outcomes",
    "Verif.Quad.User.C91_assign",
    "Verif.Quad.User.C91_level_symmetric",
    "Verif.Quad.User.C91_claim_false",
    "Verif.Quad.User.C91_user"
   ],
   "note": "the round trip is proved for every quadrature whose reciprocal sines agree with the cosines, which includes all that are constructed from such angles; lengths of the arrays of azimuths and polar angles are not checked, and shorter ones are read past the end (C91_outcomes, exact). The check of operator= compares n_polar and n_azimuthal only, which are -1 for all level-symmetric and user quadratures (refuted with orders 2 and 4)"
  },
  {
   "property": "C92",
   "status": "partial",
   "theorems": [
    "Verif.Input.C92_accepted",
    "Verif.Input.C92_usage",
    "Verif.Input.C92_other_flags",
    "Verif.Input.C92_stripped",
    "Verif.Input.C92_extension",
    "Verif.Input.C92_dotted_directory",
    "Verif.Input.C92_claim_false",
    "Verif.Input.C92_collision",
    "Verif.Input.C92_files",
    "Verif.Input.C92_process",
    "Verif.Input.C92_process_usage",
    "Verif.Input.C92_tag_wins"
   ],
   "note": "exact characterisation of the accepted lines and of the result; refuted for files without extension whose path contains a dot: strip_extension cuts at a dot of a directory, \"./input\" has the empty name and writes to \".h5\"; unknown flags are taken for the file name (C92_other_flags)"
  },
  {
   "property": "C93",
   "status": "partial",
   "theorems": [
    "Verif.Cmdo.Data.C93_accepted",
    "Verif.Cmdo.Data.C93_values",
    "Verif.Cmdo.Data.C93_whole_core",
    "Verif.Cmdo.Data.C93_round_trip_partial",
    "Verif.Cmdo.Data.C93_two_planes",
    "Verif.Cmdo.Data.C93_claim_false",
    "Verif.Cmdo.Data.C93_top_missing",
    "Verif.Cmdo.Data.C93_dispatch"
   ],
   "note": "exact condition for acceptance of several tags and values of every plane proved; round trip proved for one macroplane and refuted for more: a file of the whole core passes the test of its shape, is read into a buffer of one plane and rejected (C93_two_planes). The default of top_plane is np-1 in the checks and 0 in the reading, so that a tag without it is always rejected with more than one macroplane (C93_top_missing); a single file whose first dataset has fewer than three dimensions is read past the end of its dimensions (C93_whole_core)"
  },
  {
   "property": "C94",
   "status": "partial",
   "theorems": [
    "Verif.XS.Region.C94_holds",
    "Verif.XS.Region.C94_removal",
    "Verif.XS.Region.C94_fissile_partial",
    "Verif.XS.Region.C94_fissile_kept",
    "Verif.XS.Region.C94_never_fissile",
    "Verif.XS.Region.C94_fissile_claim_false",
    "Verif.XS.Region.C94_equal_partial",
    "Verif.XS.Region.C94_equal_refl",
    "Verif.XS.Region.C94_equal_claim_false"
   ],
   "note": "contents and removal proved for all histories; is_fissile is only computed in the constructor (regions of homogenised meshes, which are constructed empty, are never fissile), and == ignores the fission spectrum (both refuted)"
  },
  {
   "property": "C95",
   "status": "partial",
   "theorems": [
    "Verif.XS.Save.C95_round_trip_partial",
    "Verif.XS.Save.C95_claim_false",
    "Verif.XS.Save.C95_accepted",
    "Verif.XS.Save.C95_values",
    "Verif.XS.Save.C95_bounds",
    "Verif.XS.Save.C95_no_data",
    "Verif.XS.Save.C95_single",
    "Verif.XS.Save.C95_more_groups",
    "Verif.XS.Save.C95_safe_claim_false",
    "Verif.XS.Save.C95_few_matrices"
   ],
   "note": "round trip of cross sections, scattering and removal proved for non-negative scattering; the group bounds are not read from a single file (refuted), from several files those of the last are taken (C95_bounds). Acceptance and values of several tags are exact. A file of the same core with more groups is accepted and the removal cross sections are written past their end (C95_more_groups); files of several tags with scattering for too few pins are read past the end (C95_few_matrices)"
  },
  {
   "property": "C96",
   "status": "proved",
   "theorems": [
    "Verif.XS.PinMap.C96_partition",
    "Verif.XS.PinMap.C96_condensed",
    "Verif.XS.PinMap.C96_update"
   ],
   "note": "proved for all divisions into macroplanes and all placements of pins; the placement is taken as a bijection, which is C83/C24 of this model"
  },
  {
   "property": "C97",
   "status": "partial",
   "theorems": [
    "Verif.Mat.C97_lines",
    "Verif.Mat.C97_header",
    "Verif.Mat.C97_chi",
    "Verif.Mat.C97_material",
    "Verif.Mat.C97_file",
    "Verif.Mat.C97_claim_false",
    "Verif.Mat.C97_no_header",
    "Verif.Mat.C97_assign",
    "Verif.Mat.C97_count_partial",
    "Verif.Mat.C97_count_claim_false"
   ],
   "note": "lines, headers, contents, acceptance and identifiers are exact; headers that do not match are accepted under the empty name and of two materials with the same name the last is taken, although the code means to reject them (refuted); n_materials counts tags, so an identifier given twice is counted twice (refuted, proved for distinct identifiers). Conversion of text to numbers is a parameter; the constructor from a FileScrubber is the subject of C138"
  },
  {
   "property": "C98",
   "status": "partial",
   "theorems": [
    "Verif.Core.Build.C98_maps",
    "Verif.Core.Build.C98_pin",
    "Verif.Core.Build.C98_pin_partial",
    "Verif.Core.Build.C98_claim_false"
   ],
   "note": "maps proved; the condition for pins is exact: materials behind the first fissile one are not looked up, so that unknown ones are accepted (refuted; proved where no material before the last is fissile)"
  },
  {
   "property": "C99",
   "status": "partial",
   "theorems": [
    "Verif.Core.Build.C99_accepted",
    "Verif.Core.Build.C99_planes",
    "Verif.Core.Build.C99_heights_partial",
    "Verif.Core.Build.C99_claim_false",
    "Verif.Core.Build.C99_compatible",
    "Verif.Core.Build.C99_undefined",
    "Verif.Core.Build.C99_transitive_claim_false"
   ],
   "note": "acceptance, order of planes and macroplanes and compatibility are exact; an attribute hz that is not positive is accepted and leaves the assembly without heights (refuted), so that the constructor of the core reads them past the end even when it compares the assembly with itself (C99_undefined); transitivity, on which the constructor of the core relies in a comment, is refuted for heights 150 and 300 units in the last place apart"
  },
  {
   "property": "C100",
   "status": "partial",
   "theorems": [
    "Verif.Core.Build.C100_arrange",
    "Verif.Core.Build.C100_negative",
    "Verif.Core.Build.C100_claim_false",
    "Verif.Core.Build.C100_lattice_partial",
    "Verif.Core.Build.C100_core_partial",
    "Verif.Core.Build.C100_accepted_partial",
    "Verif.Core.Build.C100_defined_partial",
    "Verif.Core.Build.C100_bc",
    "Verif.Core.Build.C100_parse"
   ],
   "note": "proved for dimensions whose product is below 2^32: placement as in C49, acceptance, pins and boundaries, boundary conditions; ParseCore exact. Refuted in general: nx = ny = -1 with a single identifier passes the check of their number, since the product wraps to one, and is written behind the end of the array, in cores and in lattices (C100_negative)"
  },
  {
   "property": "C101",
   "status": "partial",
   "theorems": [
    "Verif.Sweep.Power.C101_regions",
    "Verif.Sweep.Power.C101_moc",
    "Verif.Sweep.Power.C101_fuel",
    "Verif.Sweep.Power.C101_claim_false",
    "Verif.Sweep.Power.C101_sn_raw",
    "Verif.Sweep.Power.C101_sn_raw2",
    "Verif.Sweep.Power.C101_sn",
    "Verif.Sweep.Power.C101_sn2",
    "Verif.Sweep.Power.C101_sn_total",
    "Verif.Sweep.Power.C101_same"
   ],
   "note": "element by element proved for both kinds of sweepers; the sum that the header gives, the number of elements of the array, is refuted: TransportSweeper::pin_powers normalises to the number of fuel pins of one plane, also with several macroplanes (exact value proved), Sn sweepers to the number of cells with power"
  },
  {
   "property": "C102",
   "status": "proved",
   "theorems": [
    "Verif.Sweep.Power.C102_source",
    "Verif.Sweep.Power.C102_total",
    "Verif.Sweep.Power.C102_consistent",
    "Verif.Sweep.Power.C102_residual"
   ],
   "note": "proved for cross-section meshes whose regions are a partition of the regions of the sweeper (C24, C96)"
  },
  {
   "property": "C103",
   "status": "proved",
   "theorems": [
    "Verif.Sweep.Coarse.C103_radial",
    "Verif.Sweep.Coarse.C103_faces",
    "Verif.Sweep.Coarse.C103_all",
    "Verif.Sweep.Coarse.C103_groups"
   ],
   "note": "proved"
  },
  {
   "property": "C104",
   "status": "partial",
   "theorems": [
    "Verif.Cmdo.Sweep.C104_sweep",
    "Verif.Cmdo.Sweep.C104_schedule",
    "Verif.Cmdo.Sweep.C104_no_data",
    "Verif.Cmdo.Sweep.C104_plain",
    "Verif.Cmdo.Sweep.C104_options_claim_false",
    "Verif.Cmdo.Sweep.C104_project",
    "Verif.Cmdo.Sweep.C104_moc_project_partial",
    "Verif.Cmdo.Sweep.C104_moc_single",
    "Verif.Cmdo.Sweep.C104_moc_claim_false",
    "Verif.Cmdo.Sweep.C104_claim_false"
   ],
   "note": "schedule, residual and sign of the Sn flux proved for every sweep that ends normally; exact conditions without projections and for the projection to MoC. Refuted: Sn fluxes that are not positive are set to zero, and set_pin_flux_1g of MoC then throws for zero (C104_claim_false); projection to Sn writes macroplane values to the first planes (C104_moc_claim_false, proved where each plane is a macroplane); moc_modulo=\"0\" divides by zero (C104_options_claim_false); one cell reads outside of the flux (C104_moc_single). The exception of the transverse leakage (C37) is left out"
  },
  {
   "property": "C105",
   "status": "partial",
   "theorems": [
    "Verif.Input.Factory.C105_sanitize",
    "Verif.Input.Factory.C105_quadrature",
    "Verif.Input.Factory.C105_validate",
    "Verif.Input.Factory.C105_attribute",
    "Verif.Input.Factory.C105_sn_options",
    "Verif.Input.Factory.C105_moc_options",
    "Verif.Input.Factory.C105_sn_factory",
    "Verif.Input.Factory.C105_cdd_factory",
    "Verif.Input.Factory.C105_sweeper",
    "Verif.Input.Factory.C105_solver",
    "Verif.Input.Factory.C105_source",
    "Verif.Input.Factory.C105_claim_false",
    "Verif.Input.Factory.C105_equation_claim_false",
    "Verif.Input.Factory.C105_update_claim_false",
    "Verif.Input.Factory.C105_update_partial",
    "Verif.Input.Factory.C105_doc_claim_false",
    "Verif.Input.Factory.C105_doc_partial"
   ],
   "note": "tables of all factories, options, quadrature and warnings are exact. Refuted: equation=\"DD\" is rejected although case is ignored in the neighbouring attributes; equation=\"CDD\" is accepted in an <sn_sweeper> of 2D3D and rejected for type=\"sn\"; \"gauss-seidel\" is accepted by Sn and rejected by MoC (the converse holds); the 2D3D example of doc/input.dox has no n_inner in its <sn_sweeper> and is rejected (the two other examples are accepted). Conversion of text to int is a parameter; the other work of the constructors is taken to succeed"
  },
  {
   "property": "C106",
   "status": "partial",
   "theorems": [
    "Verif.Mesh.C106_inside",
    "Verif.Mesh.C106_line_x",
    "Verif.Mesh.C106_line_y",
    "Verif.Mesh.C106_corner",
    "Verif.Mesh.C106_table",
    "Verif.Mesh.C106_lower_corners",
    "Verif.Mesh.C106_diagonal",
    "Verif.Mesh.C106_outside",
    "Verif.Mesh.C106_claim_false",
    "Verif.Mesh.C106_partial",
    "Verif.Mesh.C106_plane_claim_false",
    "Verif.Mesh.C106_plane_partial",
    "Verif.Mesh.C106_cell",
    "Verif.Mesh.C106_cell_left",
    "Verif.Mesh.C106_cell_claim_false"
   ],
   "note": "surfaces of points inside of cells, on lines and at corners are exact; coarse_cell_point proved for points behind the lower faces of a cell. Refuted: at the two lower corners of the mesh the table of surfaces is read at a negative index (everywhere else there is a result); surfaces at corners are those of the plane of the cell, not of the bottom plane as mesh.hpp says (proved for other points); points on the lower sides of the mesh are given another cell, for x that before the first of its row. Comparisons of coordinates are taken to be exact on grid lines"
  },
  {
   "property": "C107",
   "status": "partial",
   "theorems": [
    "Verif.Source.C107_source",
    "Verif.Source.C107_external",
    "Verif.Source.C107_external_claim_false",
    "Verif.Source.C107_error",
    "Verif.Source.C107_error_value",
    "Verif.Source.C107_error_single",
    "Verif.Source.C107_error_claim_false",
    "Verif.Source.C107_error_pair"
   ],
   "note": "sources of both sweepers proved without external source; with one, the source of Sn is the same as without (external claim refuted). The error of the fission source is proved for single sweepers; with the 2D3D sweeper only all regions of Sn and the first of MoC are compared, the last as many as Sn has are not (refuted; what is compared is exact)"
  },
  {
   "property": "C108",
   "status": "partial",
   "theorems": [
    "Verif.Medium.C108_load",
    "Verif.Medium.C108_store",
    "Verif.Medium.C108_store_moc",
    "Verif.Medium.C108_store_sn",
    "Verif.Medium.C108_outer",
    "Verif.Medium.C108_moc",
    "Verif.Medium.C108_sn",
    "Verif.Medium.C108_ord3",
    "Verif.Medium.C108_ord2",
    "Verif.Medium.C108_dd",
    "Verif.Medium.C108_dd2",
    "Verif.Medium.C108_dd_sc",
    "Verif.Medium.C108_cdd2",
    "Verif.Medium.C108_cdd3",
    "Verif.Medium.C108_cdd_sc",
    "Verif.Medium.C108_pmb",
    "Verif.Medium.C108_pmb_claim_false",
    "Verif.Medium.C108_boundary"
   ],
   "note": "proved for both sweepers and all schemes but the partial moment balance, which reproduces a uniform flux in cells of unit height only (C108_pmb_claim refuted; exact condition proved). Corrected diamond difference: exactly for correction factors of one half, which is what an uncorrected sweep uses. CMFD, coarse data and the 2D3D sweeper are not part of the iteration. Scattering from group to group is not negative (as in C28)"
  },
  {
   "property": "C109",
   "status": "proved",
   "theorems": [
    "Verif.Medium.C109_outer",
    "Verif.Medium.C109_outers",
    "Verif.Medium.C109_moc",
    "Verif.Medium.C109_store_moc",
    "Verif.Medium.C109_sn",
    "Verif.Medium.C109_sn_fix"
   ],
   "note": "proved for MoC with the boundary update of C17 and an exponential with 0 <= expo(x) <= 1 above the tangent (C33 and C35 state when), and for Sn with any scheme. CMFD and coarse data are not part of the iteration"
  },
  {
   "property": "C110",
   "status": "proved",
   "theorems": [
    "Verif.Medium.C110_inner",
    "Verif.Medium.C110_group",
    "Verif.Medium.C110_any",
    "Verif.Medium.C110_balance",
    "Verif.Medium.C110_closed",
    "Verif.Medium.C110_k",
    "Verif.Medium.C110_sn_inner",
    "Verif.Medium.C110_sn",
    "Verif.Medium.C110_sn_closed",
    "Verif.Medium.C110_sn_k",
    "Verif.Medium.C110_ord3",
    "Verif.Medium.C110_ord2",
    "Verif.Medium.C110_schemes",
    "Verif.Medium.C110_sc",
    "Verif.Medium.C110_store_value",
    "Verif.Medium.C110_reflect",
    "Verif.Medium.C110_reflect_moc",
    "Verif.Medium.C110_reflect_sn"
   ],
   "note": "proved. The closed case takes the conditions under which the boundary update is defined (Pre of C17: the layout that the sweepers make), reflection for Sn in three dimensions, and no step with negative flux for Sn, where replacing negative fluxes by zero would add neutrons. One inner iteration per outer iteration, as in the statement: with several of them the self-scattering is that of the last but one. Scattering from group to group is not negative (as in C28)"
  },
  {
   "property": "C111",
   "status": "proved",
   "theorems": [
    "Verif.Medium.C111_sweep",
    "Verif.Medium.C111_step",
    "Verif.Medium.C111_scale",
    "Verif.Medium.C111_update_routed",
    "Verif.Medium.C111_update_moc",
    "Verif.Medium.C111_ord3",
    "Verif.Medium.C111_ord2",
    "Verif.Medium.C111_schemes",
    "Verif.Medium.C111_fixup",
    "Verif.Medium.C111_fixup_not_additive",
    "Verif.Medium.C111_sn_inner",
    "Verif.Medium.C111_sn_sweep",
    "Verif.Medium.C111_scale_any",
    "Verif.Medium.C111_sn_scale",
    "Verif.Medium.C111_update_sn"
   ],
   "note": "proved. In exact arithmetic; CMFD, coarse data and external sources are not part of the iteration. The fix-up of negative fluxes is not additive (C111_fixup_not_additive), as one expects of it; only its multiples are as stated"
  },
  {
   "property": "C112",
   "status": "proved",
   "theorems": [
    "Verif.Medium.C112_monotone",
    "Verif.Medium.C112_fission_source",
    "Verif.Medium.C112_fixed_monotone",
    "Verif.Medium.C112_bound",
    "Verif.Medium.C112_fixed_bound",
    "Verif.Medium.C112_store"
   ],
   "note": "proved in exact arithmetic for tracks that do not cover more than the volume of a region (C33) and an exponential as in C109. The external source enters by what initialize_group reads; that an array is accepted and read in bounds at all is C28 and C60. One group after the other as in the code, so that later groups see the new flux of earlier ones"
  },
  {
   "property": "C113",
   "status": "proved",
   "theorems": [
    "Verif.Medium.C113_contract",
    "Verif.Medium.C113_unique",
    "Verif.Medium.C113_converges",
    "Verif.Medium.C113_store_one",
    "Verif.Medium.C113_store"
   ],
   "note": "proved in exact arithmetic under the conditions of C112. Uniqueness over any Archimedean ordered field, existence of the limit over the reals. That vacuum and reflection let no incoming value stay is proved of the boundary update (C113_store); prescribed values stay. Convergence of eigenvalue iterations is not claimed"
  },
  {
   "property": "C114",
   "status": "partial",
   "theorems": [
    "Verif.H5.C114_write_vec",
    "Verif.H5.C114_write_array",
    "Verif.H5.C114_write_dims_partial",
    "Verif.H5.C114_write_claim_false",
    "Verif.H5.C114_write_misfit",
    "Verif.H5.C114_read_empty",
    "Verif.H5.C114_read_line",
    "Verif.H5.C114_read_grid",
    "Verif.H5.C114_read_claim_false",
    "Verif.H5.C114_read_partial",
    "Verif.H5.C114_read_vec",
    "Verif.H5.C114_read_1d",
    "Verif.H5.C114_roundtrip",
    "Verif.H5.C114_read_scalar",
    "Verif.H5.C114_scalar"
   ],
   "note": "the positive parts and all outcomes with extents that do not fit are proved; the claims for writing with separate extents and for reading into arrays with elements are false of the code. The HDF5 library is trusted (a dataset has extents and their product of values, creating a name in use fails, reading and writing copy all values), extents are natural numbers without overflow of int"
  },
  {
   "property": "C115",
   "status": "partial",
   "theorems": [
    "Verif.H5.C115_decimal",
    "Verif.H5.C115_fixed",
    "Verif.H5.C115_eigen",
    "Verif.H5.C115_mc",
    "Verif.H5.C115_flux",
    "Verif.H5.C115_flux_plane",
    "Verif.H5.C115_groups_claim_false",
    "Verif.H5.C115_groups_mixed",
    "Verif.H5.C115_groups_partial"
   ],
   "note": "writing in full is proved for all combinations; the claim that groups are numbered from one everywhere is false (xsmesh, alpha_x, alpha_y, beta, SnResid and transverse_leakage count from zero in the same file) and holds for MoC (C115_groups_partial). Values are not part of this model; that sizes of arrays are those of the mesh is by reading of the constructors"
  },
  {
   "property": "C116",
   "status": "proved",
   "theorems": [
    "Verif.Medium.C116_solves",
    "Verif.Medium.C116_run",
    "Verif.Medium.C116_cmfd",
    "Verif.Medium.C116_exhausts",
    "Verif.Medium.C116_balance",
    "Verif.Medium.C116_converged",
    "Verif.Medium.C116_steps",
    "Verif.Medium.C116_step",
    "Verif.Medium.C116_append",
    "Verif.Medium.C116_residuals",
    "Verif.Medium.C116_same"
   ],
   "note": "proved for Sn in three dimensions with one inner iteration and without sub-planes. The linear solver is a parameter that returns a guess that solves the system (Eigen returns a guess with zero residual unless the right-hand side is zero, which is excluded by assuming a source in each group); couplings are arbitrary. Partial currents and surface fluxes are not part of it, as update_incoming_flux is not called"
  },
  {
   "property": "C117",
   "status": "proved",
   "theorems": [
    "Verif.Moc.C117_ray",
    "Verif.Moc.C117_weights",
    "Verif.Moc.C117_balance"
   ],
   "note": "proved for one plane to a macroplane, one thread, and rays as C75 needs them (points recognised, fewer than 256 segments in a cell). That segments of a ray lie in regions of the cell passed is a hypothesis (ray tracing of pins is C71 to C73); regions of a cell are given by a table from regions to cells. Sub-planes are covered by C38, which shows where the balance fails"
  },
  {
   "property": "C118",
   "status": "partial",
   "theorems": [
    "Verif.Medium.C118_removal",
    "Verif.Medium.C118_source",
    "Verif.Medium.C118_no_axial",
    "Verif.Medium.C118_visitMat_nf",
    "Verif.Medium.C118_cmfd",
    "Verif.Medium.C118_residual",
    "Verif.Medium.C118_iff",
    "Verif.Medium.C118_same",
    "Verif.Medium.C118_converged",
    "Verif.Medium.C118_steps_partial",
    "Verif.Medium.C118_step",
    "Verif.Medium.C118_left",
    "Verif.Medium.C118_append",
    "Verif.Medium.C118_claim_false"
   ],
   "note": "false in general and proved with the exact condition: the flux of a converged MoC iteration solves the CMFD systems if and only if in every coarse cell and group the currents of diffusion through top and bottom are equal (C118_iff); then CMFD and any number of accelerated steps repeat it (C118_steps_partial). One inner iteration, one plane to a macroplane, rays as in C117; the linear solver is a parameter as in C116"
  },
  {
   "property": "C119",
   "status": "proved",
   "theorems": [
    "Verif.Medium.C119_compare",
    "Verif.Medium.C119_dominant",
    "Verif.Medium.C119_unique",
    "Verif.Medium.C119_monotone",
    "Verif.Medium.C119_bound",
    "Verif.Medium.C119_nonneg"
   ],
   "note": "proved for ordered fields with the Archimedean property (rational and real numbers). The flux itself is not unique: planes that MoC does not couple can have any flux relative to each other (example of C118). That the iteration converges is not part of the claim"
  },
  {
   "property": "C120",
   "status": "partial",
   "theorems": [
    "Verif.Mc.C120_accepts",
    "Verif.Mc.C120_sites_partial",
    "Verif.Mc.C120_made",
    "Verif.Mc.C120_draws",
    "Verif.Mc.C120_rejection",
    "Verif.Mc.C120_length_error",
    "Verif.Mc.C120_refuse_claim_false",
    "Verif.Mc.C120_order_differs",
    "Verif.Mc.C120_order_claim_false",
    "Verif.Mc.C120_order_same",
    "Verif.Mc.C120_reused",
    "Verif.Mc.C120_fresh_claim_false"
   ],
   "note": "acceptance, sites, draws and the rejection flag are proved; the bound of the group and the open upper bounds need that the generator does not return one (C03). False: the check of the number of particles (C120_refuse_claim_false, C120_length_error), independence of the compiler (C120_order_claim_false) and fresh random numbers (C120_fresh_claim_false, C120_reused). Nothing compares the box with the mesh; where a site outside of it leads is not part of the claim. Conversion of text to numbers by pugixml is not modelled"
  },
  {
   "property": "C121",
   "status": "proved",
   "theorems": [
    "Verif.Mc.C121_flight",
    "Verif.Mc.C121_collision",
    "Verif.Mc.C121_spectrum",
    "Verif.Mc.C121_direction",
    "Verif.Mc.C121_directions"
   ],
   "note": "proved for single flights and collisions over the real numbers, for each random number with the others held. Independence of the numbers of one history is not a property of the generator (C01 to C03) and is not claimed; neither are variances, nor the sum over a whole history"
  },
  {
   "property": "C122",
   "status": "partial",
   "theorems": [
    "Verif.Cmfd.C122_nonneg",
    "Verif.Cmfd.C122_unique",
    "Verif.Cmfd.C122_exists",
    "Verif.Cmfd.C122_bound",
    "Verif.Cmfd.C122_claim_false",
    "Verif.Cmfd.C122_sign_false",
    "Verif.Medium.C122_balance",
    "Verif.Medium.C122_fixed"
   ],
   "note": "the first part is false as stated: nothing in the code limits the corrections, and with currents against the flux the system is singular or gives negative flux from positive sources (C122_claim_false, C122_sign_false). It is proved if every current is at most twice the coupling times the flux of the cell it comes from (C122_nonneg, C122_unique, C122_exists, C122_bound). The second part (C122_fixed) is proved under the same bound, for a positive flux of sweep and CMFD; that CMFD solves its systems is a hypothesis, since it stops by tolerances (C41). Not done for MoC, where the spectrum of a pin is weighted with the flux of the step before"
  },
  {
   "property": "C123",
   "status": "partial",
   "theorems": [
    "Verif.Rays.Options.C123_accept",
    "Verif.Rays.Options.C123_read",
    "Verif.Rays.Options.C123_modules",
    "Verif.Rays.Options.C123_tables",
    "Verif.Rays.Options.C123_warn",
    "Verif.Rays.Options.C123_silent",
    "Verif.Rays.Options.C123_claim_false",
    "Verif.Rays.Options.C123_lost"
   ],
   "note": "options (C123_accept, C123_read), modules (C123_modules, for pitches compared exactly; the code allows a difference in the last places) and tables (C123_tables) are proved. The warning is false as stated (C123_claim_false): the counts of the angles before are kept, so that an angle is warned about only if a region has been missed by it and by all angles before (C123_warn), and there is no warning at all exactly if the first angle crosses every region (C123_silent). A region missed by an angle has less than its area after flat correction (C123_lost). Conversion of text to numbers by pugixml is a parameter"
  },
  {
   "property": "C124",
   "status": "proved",
   "theorems": [
    "Verif.Moc.Tables.C124_regions",
    "Verif.Moc.Tables.C124_volumes",
    "Verif.Moc.Tables.C124_offsets",
    "Verif.Moc.Tables.C124_sizes",
    "Verif.Moc.Tables.C124_update",
    "Verif.Moc.Tables.C124_update_angle"
   ],
   "note": "proved for the tables (C124_regions, C124_volumes, C124_offsets), the sizes (C124_sizes, with the tables of C123) and both forms of the boundary update with these sizes (C124_update, C124_update_angle; the gap in the size table that C17 has does not occur). That each direction has a ray on each side is a hypothesis (C34)"
  },
  {
   "property": "C125",
   "status": "proved",
   "theorems": [
    "Verif.Cmfd.C125_everywhere",
    "Verif.Medium.C125_solution",
    "Verif.Medium.C125_converges",
    "Verif.Medium.C125_positive",
    "Verif.Medium.C125_stops",
    "Verif.Medium.C125_run"
   ],
   "note": "proved over the real numbers. The linear solver (BiCGSTAB of Eigen) is a parameter that returns a solution if there is one; with its tolerance and limit of iterations it need not. The hypotheses on corrections are those of C122, strict between cells; the code does not limit them. With up-scattering the source of a group has flux of the iteration before, which is not covered. An initial residual of zero makes a quotient without value (C59_zero_residual)"
  },
  {
   "property": "C126",
   "status": "partial",
   "theorems": [
    "Verif.Timers.C126_time",
    "Verif.Timers.C126_toc",
    "Verif.Timers.C126_toc_iff",
    "Verif.Timers.C126_toc_claim_false",
    "Verif.Timers.C126_new",
    "Verif.Timers.C126_new_claim_false",
    "Verif.Timers.C126_run",
    "Verif.Timers.C126_again",
    "Verif.Timers.C126_again_claim_false",
    "Verif.Timers.C126_again_release",
    "Verif.Timers.C126_root",
    "Verif.Timers.C126_parts_claim_false"
   ],
   "note": "the sums (C126_time), runs (C126_run) and the bound by the time of the run (C126_root) are proved, for a clock that does not go back. False: toc returns the time of all intervals, not of the last as its documentation has it (C126_toc_claim_false; exactly C126_toc_iff), new_timer returns a timer that exists as it is (C126_new_claim_false, C126_new), a part can show more than the whole, since the outer timer is stopped first (C126_parts_claim_false), and a second call of run fails an assertion (C126_again_claim_false, for every run C126_again) or, without assertions, shows wrong times (C126_again_release). Runs that end by an exception do not print timers and are not modelled; the text printed is not"
  },
  {
   "property": "C127",
   "status": "partial",
   "theorems": [
    "Verif.Log.C127_both",
    "Verif.Log.C127_silent",
    "Verif.Log.C127_lost",
    "Verif.Log.C127_screen_claim_false",
    "Verif.Log.C127_count",
    "Verif.Log.C127_summary",
    "Verif.Log.C127_list_claim_false",
    "Verif.Log.C127_none"
   ],
   "note": "the counts (C127_count), the texts if the file can be opened (C127_both) and the list on the screen (C127_summary) are proved. False: if the file cannot be opened, after one character the screen shows nothing written to LogScreen any more (C127_screen_claim_false, for all programs C127_lost and C127_silent), and the list in the log file lacks the number (C127_list_claim_false). Streams are sequences of characters; the screen takes all of them; files that fill up while they are written are not modelled"
  },
  {
   "property": "C128",
   "status": "partial",
   "theorems": [
    "Verif.Mc.C128_monotone",
    "Verif.Mc.C128_group",
    "Verif.Mc.C128_last",
    "Verif.Mc.C128_reaction",
    "Verif.Mc.C128_chi",
    "Verif.Mc.C128_exact",
    "Verif.Mc.C128_uo2",
    "Verif.Mc.C128_claim_false",
    "Verif.Mc.C128_capture_claim_false",
    "Verif.Mc.C128_chi_claim_false"
   ],
   "note": "proved: order and length for any monotone rounding (C128_monotone), which numbers give a group and that there is scattering into it (C128_group, C128_chi), the last entry is at least 1 - (2 ng + 2) 2^-53 (C128_last, for sums without subnormal results), the reaction is one of three and not scattering or fission with zero cross section (C128_reaction). False: with the shipped UO2-3.3 and with a spectrum 0.33, 0.56, 0.11 the tables end below one, and the number 1, which every seed reaches, gives the group ng (C128_claim_false, C128_uo2, C128_chi_claim_false); a capture is possible where the cross section of capture is zero (C128_capture_claim_false). Rounding to nearest even with subnormals, operation by operation; overflow, infinities and fused operations are not modelled"
  },
  {
   "property": "C129",
   "status": "partial",
   "theorems": [
    "Verif.Moc.C129_boundary",
    "Verif.Moc.C129_exact",
    "Verif.Moc.C129_index",
    "Verif.Moc.C129_bounds_claim_false",
    "Verif.Moc.C129_range",
    "Verif.Moc.C129_sweep",
    "Verif.Moc.C129_max_claim_false",
    "Verif.Moc.C129_flux_claim_false"
   ],
   "note": "proved: exactly which arguments read outside (C129_index: those from -2^-50 on), values between zero and one for all others (C129_range, with what is needed of exp in libExp_table), boundary values not negative for any monotone rounding (C129_boundary) and with the table (C129_sweep, segments thicker than 2^-50). False: reads inside for all negative arguments (C129_bounds_claim_false; true in exact arithmetic, C50), angular flux at most the larger of the two (C129_max_claim_false), scalar flux not negative (C129_flux_claim_false, with the hypotheses of C31_nonneg and an exponential within one unit in the last place). Rounding as in C128; one thread, so that sums have one order"
  },
  {
   "property": "C130",
   "status": "partial",
   "theorems": [
    "Verif.Mc.C130_range",
    "Verif.Mc.C130_polar",
    "Verif.Mc.C130_number",
    "Verif.Mc.C130_below",
    "Verif.Mc.C130_int",
    "Verif.Mc.C130_open_claim_false",
    "Verif.Mc.C130_upper_claim_false",
    "Verif.Mc.C130_mean",
    "Verif.Mc.C130_deviation",
    "Verif.Mc.C130_mean_claim_false",
    "Verif.Mc.C130_deviation_claim_false",
    "Verif.Mc.C130_exact"
   ],
   "note": "proved: for random numbers below one random(ubound) is below its bound (2^-1021 or more), random(lbound, ubound) is not above its own (C130_below) and random_int is below its bound (C130_int); lower bounds (C130_range) and the cosine (C130_polar) for all of [0, 1]. The mean is within n + 1 roundings of the exact mean (C130_mean) and the deviation is a number if the variance of the scores exceeds (3n + 6) 2^-53 of their mean square (C130_deviation). False: random(lbound, ubound) below its bound (C130_open_claim_false), at most its bound for the number one (C130_upper_claim_false), mean between the scores (C130_mean_claim_false), deviation always a number (C130_deviation_claim_false). Rounding as in C128; overflow is not modelled"
  },
  {
   "property": "C131",
   "status": "partial",
   "theorems": [
    "Verif.Par.C131_moc",
    "Verif.Par.C131_moc_agree",
    "Verif.Par.C131_moc_claim_false",
    "Verif.Par.C131_sn",
    "Verif.Par.C131_sn_switch",
    "Verif.Par.C131_mc",
    "Verif.Par.C131_rays"
   ],
   "note": "proved: no race in the MoC sweep without currents (C131_moc), in the Sn sweep (C131_sn, for as many threads as omp_get_max_threads() gave when the sweeper was made) and in a Monte Carlo cycle (C131_mc); with the boundary update after each direction two threads of the Sn sweep would race (C131_sn_switch); the rays as laid out meet the condition on slots (C131_rays). False for the MoC sweep with currents or correction factors (C131_moc_claim_false); there every race is between stores of the same value, and a thread reads only what it has stored itself before (C131_moc_agree, planes with one direction or more). Only accesses to memory that is written in the region are modelled; accesses are ordered by barriers, the implied ones of for and single, critical sections and atomic updates"
  },
  {
   "property": "C132",
   "status": "partial",
   "theorems": [
    "Verif.Draw.C132_drawn",
    "Verif.Draw.C132_rect",
    "Verif.Draw.C132_sector",
    "Verif.Draw.C132_cyl",
    "Verif.Draw.C132_cyl_claim_false",
    "Verif.Draw.C132_inside",
    "Verif.Draw.C132_output",
    "Verif.Draw.C132_claim_false",
    "Verif.Draw.C132_pins_partial"
   ],
   "note": "proved: which points have ink (C132_drawn, both directions), what this means in rectangular pins (C132_rect) and in cylindrical ones with an even number of sectors (C132_sector, C132_cyl), that nothing of a pin is drawn outside of its square (C132_inside), which pins are drawn where and for which planes there is an error (C132_output; origins of pins are those of C83). False: boundaries between pins over the whole core (C132_claim_false; true for cores not higher than wide, C132_pins_partial), nothing but rings and sector lines (C132_cyl_claim_false, one sector). The behaviour of cairo is modelled from its documentation; numbers have six digits in the file and are exact in the model"
  },
  {
   "property": "C133",
   "status": "partial",
   "theorems": [
    "Verif.SurfFlux.C133_currents",
    "Verif.SurfFlux.C133_moc",
    "Verif.SurfFlux.C133_corr_partial",
    "Verif.SurfFlux.C133_moc_claim_false",
    "Verif.SurfFlux.C133_sn_partial",
    "Verif.SurfFlux.C133_sn_claim_false",
    "Verif.SurfFlux.C133_flat_partial",
    "Verif.SurfFlux.C133_flat_claim_false",
    "Verif.SurfFlux.C133_first",
    "Verif.SurfFlux.C133_first_partial",
    "Verif.SurfFlux.C133_incoming_claim_false"
   ],
   "note": "proved: the two MoC workers tally the same currents (C133_currents); what moc::Current adds to the surface flux, times the component of the direction, is the difference of the currents of the two directions, which are those of C75 (C133_moc). False: equal surface fluxes of the two MoC workers (C133_moc_claim_false; CurrentCorrections has the net current over the component of the direction, C133_corr_partial), Sn surface flux with weights (C133_sn_claim_false; without, C133_sn_partial, and the number of directions times the angular flux in a flat field, C133_flat_partial, C133_flat_claim_false), incoming flux not changed (C133_incoming_claim_false; it is multiplied by the number of directions over 4 pi, C133_first_partial). Directions with no component zero; three-dimensional Sn only; the division by the area after a MoC sweep is left out"
  },
  {
   "property": "C134",
   "status": "partial",
   "theorems": [
    "Verif.Mesh.Machine.C134_counts",
    "Verif.Mesh.Machine.C134_cell",
    "Verif.Mesh.Machine.C134_table",
    "Verif.Mesh.Machine.C134_index",
    "Verif.Mesh.Machine.C134_normal",
    "Verif.Mesh.Machine.C134_neighbours",
    "Verif.Mesh.Machine.C134_claim_false",
    "Verif.Mesh.Machine.C134_store",
    "Verif.Mesh.Machine.C134_face",
    "Verif.Mesh.Machine.C134_store_claim_false"
   ],
   "note": "proved for meshes of less than 2^31 / 6 cells (C134_counts, C134_cell, C134_table, C134_index, C134_normal, C134_neighbours) and for stores of less than 2^31 values (C134_store, C134_face); beyond, the behaviour is undefined (second parts of C134_table and C134_store). False as stated: the size of the table overflows before the numbers of surfaces do (C134_claim_false, 720 x 720 x 720 cells), and the number of boundary values of all groups before that of one (C134_store_claim_false, 172 groups, 192 directions, 255 x 255 x 100 cells). Fine mesh regions, rays and other indices are not covered; assertions are not modelled"
  },
  {
   "property": "C135",
   "status": "partial",
   "theorems": [
    "Verif.Errors.C135_grows",
    "Verif.Errors.C135_report",
    "Verif.Errors.C135_zero",
    "Verif.Errors.C135_terminated",
    "Verif.Errors.C135_fail",
    "Verif.Errors.C135_chain",
    "Verif.Errors.C135_instead",
    "Verif.Errors.C135_h5",
    "Verif.Errors.C135_quad",
    "Verif.Errors.C135_output",
    "Verif.Errors.C135_lattice",
    "Verif.Errors.C135_core",
    "Verif.Errors.C135_material",
    "Verif.Errors.C135_mc",
    "Verif.Errors.C135_update",
    "Verif.Errors.C135_claim_false",
    "Verif.Errors.C135_mocc_claim_false",
    "Verif.Errors.C135_cause_claim_false"
   ],
   "note": "proved: a mocc::Exception that leaves a part of the run is reported (C135_report, C135_fail for the constructor of the fixed-source solver), status 0 exactly if all parts end normally (C135_zero), output only grows (C135_grows), texts of causes (C135_chain), exceptions of HDF5 in functions with catch (...) (C135_h5), unknown assemblies and materials (C135_core, C135_material), boundary updates do not throw with boundary conditions from the input (C135_update). False: exceptions of the standard library and of HDF5 terminate the program (C135_claim_false, C135_terminated, C135_lattice, C135_quad), so do those that leave a parallel region (C135_mocc_claim_false; exactly when, C135_mc), and where an exception is replaced the log lacks the cause (C135_cause_claim_false, C135_instead). What std::terminate prints, and text of the log not flushed at that time, are not modelled; interrupts are C52"
  },
  {
   "property": "C136",
   "status": "partial",
   "theorems": [
    "Verif.Medium.C136_sn",
    "Verif.Medium.C136_outer",
    "Verif.Medium.C136_last",
    "Verif.Medium.C136_sn_subplanes",
    "Verif.Medium.C136_moc_subplanes",
    "Verif.Medium.C136_moc",
    "Verif.Medium.C136_claim_false",
    "Verif.Medium.C136_order_claim_false"
   ],
   "note": "proved for the group swept last: Sn with positive flux and the regions of the cross-section mesh in the order of the cells (C136_sn; C136_last after an outer iteration that leaves the flux as it is), MoC without sub-planes, where the net axial current that was there before the sweep is left over (C136_moc). False for other groups, since source and, for Sn, flux are those of the last group (C136_claim_false; what is printed instead, C136_outer) and for other orders of the regions (C136_order_claim_false, two lattices side by side). With sub-planes both read out of bounds (C136_sn_subplanes, C136_moc_subplanes). Sn in three dimensions; the result of C136_outer is for one inner iteration"
  },
  {
   "property": "C137",
   "status": "proved",
   "theorems": [
    "Verif.Moc.C137_file",
    "Verif.Moc.C137_head",
    "Verif.Moc.C137_needed"
   ],
   "note": "proved for every number of angles and rays, at least one ray for each angle (C137_file; C137_needed shows that this is needed). How numbers are written is a parameter; the file is taken to be opened and written without errors"
  },
  {
   "property": "C138",
   "status": "partial",
   "theorems": [
    "Verif.Mat.C138_row",
    "Verif.Mat.C138_scat",
    "Verif.Mat.C138_bounds",
    "Verif.Mat.C138_agree",
    "Verif.Mat.C138_first",
    "Verif.Mat.C138_claim_false"
   ],
   "note": "files accepted by the constructor from the input are accepted by the other, with the same library (C138_agree); what each kind of row gives is exact (C138_row, C138_scat, C138_bounds), and the constructor ends as the first row that is not good (C138_first). That both reject the same files is refuted: the constructor from a FileScrubber ignores further numbers in a row, takes a word in place of the last number of a scattering row as zero, and uses uninitialised values if a scattering row is too short. How a number is read where it begins, and how the two counts are read, are parameters"
  },
  {
   "property": "C139",
   "status": "partial",
   "theorems": [
    "Verif.Cmfd.C139_mesh",
    "Verif.Cmfd.C139_scaled",
    "Verif.Cmfd.C139_numbers",
    "Verif.Cmfd.C139_partial",
    "Verif.Cmfd.C139_claim_false",
    "Verif.Cmfd.C139_plane",
    "Verif.Cmfd.C139_plane_claim_false"
   ],
   "note": "the mesh, its heights and volumes are proved (C139_mesh); so is what happens to surface fluxes and partial currents (C139_numbers, C139_scaled, C139_plane) and the claim without sub-planes (C139_partial). With sub-planes it is refuted: they are kept by the number of the surface in the mesh of CMFD, which in the core is a surface of the plane with the number of the macroplane, and planes with higher numbers keep old values, for partial currents zero. One group; currents with sub-planes are the subject of C40"
  },
  {
   "property": "C140",
   "status": "partial",
   "theorems": [
    "Verif.Mc.C140_run",
    "Verif.Mc.C140_threads",
    "Verif.Mc.C140_exists",
    "Verif.Mc.C140_claim_false"
   ],
   "note": "for completed runs everything is proved (C140_run), and that the outcome does not depend on the threads (C140_threads); the last sentence is refuted: after the last cycle a further source is drawn, which is undefined if no site was banked. What a history does is a parameter (the subject of C120 to C125), as is the entropy (C43); exact arithmetic; one spatial tally stands for all; the number of active cycles is the subject of C45"
  },
  {
   "property": "C141",
   "status": "partial",
   "theorems": [
    "Verif.Sn.C141_exact",
    "Verif.Sn.C141_exact_sc",
    "Verif.Sn.C141_average",
    "Verif.Sn.C141_error_dd",
    "Verif.Sn.C141_error_cdd",
    "Verif.Sn.C141_balance",
    "Verif.Sn.C141_rho",
    "Verif.Sn.C141_rho_range",
    "Verif.Sn.C141_sc_partial",
    "Verif.Sn.C141_thin",
    "Verif.Sn.C141_void",
    "Verif.Sn.C141_sc_vacuum",
    "Verif.Sn.C141_sc_claim_false",
    "Verif.Sn.C141_thin_exact"
   ],
   "note": "proved for diamond difference, the schemes with correction factors, with fix-up and forward differencing (C141_average, C141_error_dd, C141_error_cdd, C141_balance; error bounds are not stated for the scheme with fix-up, whose branch may differ from that of exact arithmetic, and balance for diamond difference only); refuted for the step characteristics: at an optical thickness of about 1e-9 the weight is 128 and the average flux negative, below about 1e-16 and in void the code divides by zero; for a thickness of at least 2^-20 the weight lies between 0 and 7/8 and averages are not negative (C141_sc_partial), with the error of the weight at most 2^-48 over the square of the thickness (C141_rho). Results beyond the largest double are not modelled, nor contraction to fused operations"
  },
  {
   "property": "C142",
   "status": "partial",
   "theorems": [
    "Verif.Source.C142_exact",
    "Verif.Source.C142_nonneg",
    "Verif.Source.C142_steps",
    "Verif.Source.C142_source",
    "Verif.Source.C142_self_scatter",
    "Verif.Source.C142_fission_source",
    "Verif.Source.C142_total",
    "Verif.Source.C142_k",
    "Verif.Source.C142_drift",
    "Verif.Source.C142_still_claim_false",
    "Verif.Source.C142_still_partial",
    "Verif.Source.C142_underflow"
   ],
   "note": "proved with error bounds (C142_source, C142_self_scatter, C142_fission_source, C142_total, C142_k, C142_drift) and signs for every monotone rounding (C142_nonneg, C142_steps). The last sentence is refuted: k * t / t need not be k in doubles (C142_still_claim_false, k = 1.5, t = 0.1); the change is at most three half units in the last place (C142_still_partial). Where products underflow there is no bound: C142_underflow gives total fission zero and an eigenvalue that is not a number. Without external source and CMFD; overflow is not modelled; the constant 4 pi is any positive number"
  },
  {
   "property": "C143",
   "status": "partial",
   "theorems": [
    "Verif.Source.C143_count",
    "Verif.Source.C143_sign",
    "Verif.Source.C143_error",
    "Verif.Source.C143_iteration",
    "Verif.Source.C143_converged",
    "Verif.Source.C143_number",
    "Verif.Source.C143_no_fission",
    "Verif.Source.C143_infinite",
    "Verif.Source.C143_mode",
    "Verif.Source.C143_pair_claim_false"
   ],
   "note": "proved for sweepers with a fission source of their own regions (C143_count, C143_sign, C143_error, C143_iteration, C143_converged, C143_number, C143_no_fission, C143_mode; C143_infinite for fluxes without fission). Refuted for the 2D3D sweeper: the error compares the first values of an array that begins with those of Sn, relative to an average over both, with the number of fissile regions of MoC (C143_pair_claim_false). Exact arithmetic, no CMFD; errors and tolerance of the fission source are compared as squares; fixed-source steps are parameters"
  },
  {
   "property": "C144",
   "status": "partial",
   "theorems": [
    "Verif.Cmdo.C144_bounds",
    "Verif.Cmdo.C144_claim_false",
    "Verif.Cmdo.C144_once",
    "Verif.Cmdo.C144_match",
    "Verif.Cmdo.C144_preserve",
    "Verif.Cmdo.C144_uncomputed"
   ],
   "note": "proved: the exact conditions on the numbers of angles under which no access is out of bounds (C144_bounds), each in-plane direction computed once (C144_once), factors of the own direction unless the quadrature is preserved (C144_match). Refuted in general: the numbers of angles are compared nowhere, so an Sn quadrature of another size than that of MoC is undefined behaviour (C144_claim_false); with preserve_sn_quadrature the factors fit exactly if the in-plane directions are the same (C144_preserve), and factors of surplus angles are never computed (C144_uncomputed). Indices of groups, cells and faces are taken to be in range; a quadrature in a data file is taken to be complete in all octants"
  },
  {
   "property": "C145",
   "status": "partial",
   "theorems": [
    "Verif.Cmdo.C145_kernel",
    "Verif.Cmdo.C145_direction_partial",
    "Verif.Cmdo.C145_flux_partial",
    "Verif.Cmdo.C145_claim_false"
   ],
   "note": "proved for square pins without splitting (C145_direction_partial, C145_flux_partial; link to the MoC kernel C145_kernel, faces seen from both sides sums_linked); refuted for other pins (C145_claim_false: a flat flux of one in a pin of 1 x 2 is not reproduced, because sums on a face are divided by the wrong width, as in C39). A core of one plane, one group, exact arithmetic; fluxes, lengths and collisions are taken to be positive where the code divides by them; that a ray passes from boundary to boundary through neighbouring pins is an assumption (C73, C74)"
  },
  {
   "property": "C146",
   "status": "partial",
   "theorems": [
    "Verif.Medium.C146_residual",
    "Verif.Medium.C146_outer_partial",
    "Verif.Medium.C146_outers_partial",
    "Verif.Medium.C146_claim_false"
   ],
   "note": "proved for square pins (C146_outer_partial, C146_outers_partial); refuted for other pins (C146_claim_false: one pin of 1 x 2 with a flat MoC solution; after one Sn sweep the Sn flux is another one). One plane, no splitting, exact arithmetic; that the MoC solution is converged is stated with the fluxes of the beams and the MoC scalar flux they give (mocFlux of C145); the boundary condition enters by what it does to the averages (BcFits); the example keeps incoming values fixed"
  },
  {
   "property": "C147",
   "status": "partial",
   "theorems": [
    "Verif.Cmdo.C147_throws",
    "Verif.Cmdo.C147_zero",
    "Verif.Cmdo.C147_plain",
    "Verif.Cmdo.C147_order",
    "Verif.Cmdo.C147_factors",
    "Verif.Cmdo.C147_residuals",
    "Verif.Cmdo.C147_beta_partial",
    "Verif.Cmdo.C147_beta_ratio",
    "Verif.Cmdo.C147_alpha",
    "Verif.Cmdo.C147_plane_source",
    "Verif.Cmdo.C147_claim_false"
   ],
   "note": "proved: exception (C147_throws), fluxes of the plain sweeper (C147_plain), order of events (C147_order), factors (C147_factors), residuals (C147_residuals); that factor and cross section belong together only for pins whose flux in the group did not change in the last inner iteration, up to a factor, or whose regions have the same cross section (C147_beta_partial; what is met in general: C147_beta_ratio). Refuted otherwise (C147_claim_false): the factors are made with cross sections homogenised with the flux before the last inner iteration, the Sn sweep homogenises with the flux after it. Without inner iterations no factors are made at all (C147_zero). The MoC sweep is a parameter, for the refutation that of C145 with fixed incoming fluxes; residuals are compared as squares; exact arithmetic"
  },
  {
   "property": "C148",
   "status": "proved",
   "theorems": [
    "Verif.Mc.C148_run",
    "Verif.Mc.C148_conserved",
    "Verif.Mc.C148_upper",
    "Verif.Mc.C148_ends",
    "Verif.Mc.C148_lower",
    "Verif.Mc.C148_limit",
    "Verif.Mc.C148_drift",
    "Verif.Mc.C148_worth",
    "Verif.Mc.C148_dual",
    "Verif.Mc.C148_infinite",
    "Verif.Mc.C148_k",
    "Verif.Mc.C148_flux"
   ],
   "note": "proved: one pass (step), conservation of scores and worth (C148_conserved, C148_upper), end of histories (C148_ends, C148_drift), limits for all scores (C148_lower, C148_limit), existence of worths (C148_worth), k (C148_k) and fluxes (C148_flux) of the infinite medium (C148_dual, C148_infinite). Random numbers are uniform real numbers, a pass is averaged over the five numbers it may draw (mean; without averaging this is the loop of the model, C148_run). Hypotheses: every pass from the states considered is defined (Closed; C15, C79 and C81 tell when it is not), particles do not fly for ever without collision (Drift, which follows from a least probability of collision per flight, C148_drift; the example, a rod between two mirrors with the displacements of the code, has no such least probability and meets Drift with a two-step function). Exact arithmetic; weights are not changed by the code"
  },
  {
   "property": "C149",
   "status": "partial",
   "theorems": [
    "Verif.XS.Share.C149_updated",
    "Verif.XS.Share.C149_still",
    "Verif.XS.Share.C149_tables",
    "Verif.XS.Share.C149_matrices",
    "Verif.XS.Share.C149_removal_iff",
    "Verif.XS.Share.C149_sweep",
    "Verif.XS.Share.C149_group",
    "Verif.XS.Share.C149_moc",
    "Verif.XS.Share.C149_source",
    "Verif.XS.Share.C149_converged",
    "Verif.XS.Share.C149_unweighted",
    "Verif.XS.Share.C149_removal_claim_false",
    "Verif.XS.Share.C149_expand_claim_false",
    "Verif.XS.Share.C149_source_claim_false"
   ],
   "note": "proved: what each mesh holds after any history (C149_tables, C149_matrices, C149_updated, C149_still), every Sn sweep has the cross sections and matrices of the flux at its beginning (C149_sweep, C149_group), the correction factors those of the flux before the last inner iteration of MoC (C149_moc), agreement once the flux no longer changes what is homogenised (C149_converged) and without flux weighting (C149_unweighted); when removal and matrix agree: C149_removal_iff. Refuted at other times: after CMFD the removal cross section does not belong to the matrix of the sweeper (C149_removal_claim_false), expand returns old values because the counter of the mesh was not touched (C149_expand_claim_false; in the code expand always comes after an update of its own mesh), and the scattering source of the first group uses older matrices than the sweep (C149_source_claim_false, C149_source). Homogenisation is a parameter, for the refutations that of C26; overflow of state_ is not modelled"
  },
  {
   "property": "C150",
   "status": "partial",
   "theorems": [
    "Verif.XS.C150_nonneg",
    "Verif.XS.C150_exact",
    "Verif.XS.C150_removal",
    "Verif.XS.C150_zero_flux",
    "Verif.XS.C150_error",
    "Verif.XS.C150_error_scatter",
    "Verif.XS.C150_error_spectrum",
    "Verif.XS.C150_one_material_claim_false",
    "Verif.XS.C150_removal_claim_false",
    "Verif.XS.C150_finite_claim_false",
    "Verif.XS.C150_between",
    "Verif.XS.C150_between_scatter",
    "Verif.XS.C150_absorption",
    "Verif.XS.C150_between_spectrum",
    "Verif.XS.C150_one_material",
    "Verif.XS.C150_shape",
    "Verif.XS.C150_between_area"
   ],
   "note": "proved: bounds (C150_between, C150_between_scatter, C150_absorption, C150_between_spectrum, C150_between_area), one material (C150_one_material), shape (C150_shape), all in exact arithmetic; in rounded arithmetic signs (C150_nonneg) and, for binary64, errors (C150_error, C150_error_scatter, C150_error_spectrum); the removal is one subtraction (C150_removal); without rounding the rounded functions are those of C26 (C150_exact). Refuted: one material in double precision (C150_one_material_claim_false: 0.9 comes back smaller), removal (C150_removal_claim_false: -2^-52), numbers for every flux (C150_finite_claim_false, C150_zero_flux: a group without flux). A quotient with zero divisor is the outcome none; overflow and fused operations are not modelled; the volume-weighted version is not treated in double precision"
  },
  {
   "property": "C151",
   "status": "partial",
   "theorems": [
    "Verif.Mc.C151_draws",
    "Verif.Mc.C151_mean",
    "Verif.Mc.C151_site",
    "Verif.Mc.C151_selection",
    "Verif.Mc.C151_copies",
    "Verif.Mc.C151_cycle_draws",
    "Verif.Mc.C151_cycle",
    "Verif.Mc.C151_hits",
    "Verif.Mc.C151_hits_claim_false"
   ],
   "note": "proved: which draws resize makes (C151_draws, C151_cycle_draws), representation (C151_mean, C151_site, C151_cycle), equal probability of selections (C151_selection) and of copies (C151_copies) for independent and equally likely draws; for the generator itself that over one period each number below N is returned 2^63/N times up to 4100, a relative frequency within 2^-50 of 1/N (C151_hits). Refuted: that it is at least the fair share (C151_hits_claim_false; N = 1, draws that round up to one miss the bank, C03). That successive draws of the generator are independent is not proved (they are not, it is an LCG)"
  },
  {
   "property": "C152",
   "status": "partial",
   "theorems": [
    "Verif.Cmfd.C152_dtilde_nonneg",
    "Verif.Cmfd.C152_stilde_fraction",
    "Verif.Cmfd.C152_reflective",
    "Verif.Cmfd.C152_exchange",
    "Verif.Cmfd.C152_symmetric",
    "Verif.Cmfd.C152_signs",
    "Verif.Cmfd.C152_diagonal",
    "Verif.Cmfd.C152_current",
    "Verif.Cmfd.C152_current_claim_false",
    "Verif.Cmfd.C152_zero_flux",
    "Verif.Cmfd.C152_surface_flux",
    "Verif.Cmfd.C152_coupling",
    "Verif.Cmfd.C152_partial",
    "Verif.Cmfd.C152_exact",
    "Verif.Cmfd.C152_exact_matrix"
   ],
   "note": "proved: signs and fractions for every rounding (C152_dtilde_nonneg, C152_stilde_fraction, C152_reflective, C152_exchange, C152_symmetric, C152_signs, C152_diagonal), errors of the coupling (C152_coupling), of the current (C152_current: 5 half units of the given current and of the diffusion current, without any assumption on magnitudes), of the surface flux (C152_surface_flux) and of the partial currents (C152_partial); without rounding the functions are those of C40 and C57 (C152_exact, C152_exact_matrix). Refuted: that the error is a fraction of the given current (C152_current_claim_false: 2^-60 between fluxes 1 and 2 comes back as zero). Zero flux on both sides: C152_zero_flux. Overflow, fused operations and the linear solver are not modelled; the average of currents over sub-planes is not treated in double precision"
  },
  {
   "property": "C153",
   "status": "partial",
   "theorems": [
    "Verif.Core.C153_corner",
    "Verif.Core.C153_sorted",
    "Verif.Core.C153_exact",
    "Verif.Core.C153_faces",
    "Verif.Core.C153_lattice_faces",
    "Verif.Core.C153_on_face",
    "Verif.Core.C153_on_plane",
    "Verif.Core.C153_location",
    "Verif.Core.C153_fp_equiv",
    "Verif.Core.C153_gap",
    "Verif.Core.C153_outside",
    "Verif.Core.C153_claim_false",
    "Verif.Core.C153_box_claim_false",
    "Verif.Core.C153_without_rounding"
   ],
   "note": "proved: order of the faces for every rounding (C153_sorted), corner of the box = last face of the plane bit for bit (C153_corner), exact where the sums are doubles (C153_exact), errors of the faces (C153_faces, C153_lattice_faces, C153_gap), location (C153_location), what it needs of fp_equiv (C153_fp_equiv), points on a stored face (C153_on_face, C153_on_plane); without rounding the functions are those of C49 and C86 (C153_without_rounding). Refuted: last pin boundary = corner of the box (C153_claim_false: three lattices of 17 pins of pitch 1.26, 3 x 2^-46 missing), a location for every point of the box (C153_box_claim_false, C153_outside: x_vec_ is read past its end). Overflow is not modelled; fp_equiv is a parameter that holds only for close numbers"
  },
  {
   "property": "C154",
   "status": "partial",
   "theorems": [
    "Verif.Medium.C154_error",
    "Verif.Medium.C154_constant",
    "Verif.Medium.C154_same",
    "Verif.Medium.C154_unique",
    "Verif.Medium.C154_converges",
    "Verif.Medium.C154_claim_false"
   ],
   "note": "proved: the fission source is constant (C154_constant, any sweeper), the error of the fission source is zero (C154_error), the states are those of the fixed-source solver with an external source (C154_same), one eigenvalue (C154_unique, any sign), geometric convergence of k and flux for MoC over the reals (C154_converges; needs an exponential above its tangent and a chain of downscattering from a group with fission neutrons to one with fission). Refuted: that a calculation in which both errors are zero has found the eigenvalue (C154_claim_false: two groups, k is 1 after the first iteration from the start of the code, the eigenvalue is above 4/3; stall_first, stall_converged). The starting flux of the code and its k are used in the refutation; CMFD is off"
  },
  {
   "property": "C155",
   "status": "proved",
   "theorems": [
    "Verif.Medium.C155_sweep",
    "Verif.Medium.C155_reciprocity",
    "Verif.Medium.C155_fixed",
    "Verif.Medium.C155_overlap",
    "Verif.Medium.C155_overlap_pos",
    "Verif.Medium.C155_k",
    "Verif.Medium.C155_boundary"
   ],
   "note": "proved: reciprocity of the sweep (C155_sweep), of any two converged calculations with sources by group (C155_reciprocity), of fixed-source calculations (C155_fixed), equal k (C155_overlap without, C155_k with the assumption that fissions of one and emission of the other overlap, which holds for fluxes that are not negative and positive in one fissile region, C155_overlap_pos); the store of boundary values with reflection or vacuum on each side satisfies the conditions (C155_boundary). Converged means that one more outer iteration changes neither the flux nor the incoming values; one inner iteration; prescribed boundary values are excluded; Sn is the subject of C156"
  },
  {
   "property": "C156",
   "status": "partial",
   "theorems": [
    "Verif.Sn.C156_ordinates",
    "Verif.Sn.C156_ordinates_2d",
    "Verif.Medium.C156_ord3",
    "Verif.Medium.C156_ord2",
    "Verif.Medium.C156_diamond",
    "Verif.Medium.C156_half",
    "Verif.Medium.C156_sc",
    "Verif.Medium.C156_sweep",
    "Verif.Medium.C156_reciprocity",
    "Verif.Medium.C156_fixed",
    "Verif.Medium.C156_k",
    "Verif.Medium.C156_boundary3",
    "Verif.Medium.C156_boundary2",
    "Verif.Medium.C156_corrected_claim_false",
    "Verif.Medium.C156_fixup_claim_false"
   ],
   "note": "proved: opposite ordinates (C156_ordinates, C156_ordinates_2d; C156_ord3, C156_ord2 for the ordinates of the sweepers), schemes (C156_diamond, C156_half, C156_sc with the true exponential), sweep of one group (C156_sweep), any two converged calculations (C156_reciprocity), fixed sources (C156_fixed), equal k (C156_k), the boundary update and quadrature of the code (C156_boundary3, C156_boundary2). Refuted: corrected diamond difference with factors that differ between cells, although the same for opposite directions (C156_corrected_claim_false), and the fix-up of negative fluxes (C156_fixup_claim_false). Positive converged flux, so that the replacement of negative fluxes by zero after the sweep does nothing; one inner iteration; the ordinate opposite to another in three dimensions is found by three reflections, as reverse is wrong there (C19); the PMB scheme is not treated (C29)"
  },
  {
   "property": "C157",
   "status": "proved",
   "theorems": [
    "Verif.Medium.C157_ord3",
    "Verif.Medium.C157_ord2",
    "Verif.Medium.C157_sweep",
    "Verif.Medium.C157_groups",
    "Verif.Medium.C157_k",
    "Verif.Medium.C157_fixed",
    "Verif.Medium.C157_boundary3",
    "Verif.Medium.C157_boundary2",
    "Verif.Medium.C157_local3",
    "Verif.Medium.C157_local2",
    "Verif.Medium.C157_half_sweep",
    "Verif.Medium.C157_half_groups",
    "Verif.Medium.C157_half_k",
    "Verif.Medium.C157_half_fixed"
   ],
   "note": "proved: one ordinate (C157_ord3, C157_ord2; any scheme, which may differ between cells), a sweep of one group with converged incoming values (C157_sweep), the groups in turn (C157_groups), eigenvalue calculations (C157_k), fixed sources (C157_fixed), the boundary update and quadrature of the code (C157_boundary3, C157_boundary2). The other direction: C157_half_sweep, C157_half_groups, C157_half_k, C157_half_fixed (the incoming values on the reflected face are what the sweep of the western half leaves there; C157_local3, C157_local2: a sweep uses nothing but its sources and incoming values). Stated for the east side. That the longer problem converges to a symmetric state is a hypothesis of the other direction. Positive converged flux; one inner iteration; the region and data of the longer problem are hypotheses on the data (mirrored regions), not derived from two input files"
  },
  {
   "property": "C158",
   "status": "proved",
   "theorems": [
    "Verif.Medium.C158_ord3",
    "Verif.Medium.C158_ord2",
    "Verif.Medium.C158_sweep",
    "Verif.Medium.C158_production",
    "Verif.Medium.C158_group",
    "Verif.Medium.C158_groups",
    "Verif.Medium.C158_outer",
    "Verif.Medium.C158_outers",
    "Verif.Medium.C158_fixed",
    "Verif.Medium.C158_symmetric",
    "Verif.Medium.C158_boundary3",
    "Verif.Medium.C158_boundary2",
    "Verif.Medium.C158_not_gauss_seidel"
   ],
   "note": "proved: one ordinate (C158_ord3, C158_ord2; any scheme, mirrored with the cells), a sweep of one group (C158_sweep), the inner iterations with the cut-off of negative fluxes (C158_group), the groups in turn (C158_groups), outer iterations with the same k (C158_outer, C158_outers), fixed sources (C158_fixed), symmetric cores (C158_symmetric), the boundary update and quadrature of the code (C158_boundary3, C158_boundary2). That Jacobi updating is needed: C158_not_gauss_seidel. Cosines are not zero; prescribed boundary values are excluded; exact arithmetic (rounded sums depend on the order of the cells and ordinates)"
  },
  {
   "property": "C159",
   "status": "proved",
   "theorems": [
    "Verif.Medium.C159_plane",
    "Verif.Medium.C159_sweep",
    "Verif.Medium.C159_group",
    "Verif.Medium.C159_groups",
    "Verif.Medium.C159_outer",
    "Verif.Medium.C159_outers",
    "Verif.Medium.C159_fixed",
    "Verif.Medium.C159_symmetric",
    "Verif.Medium.C159_boundary",
    "Verif.Medium.C159_not_gauss_seidel"
   ],
   "note": "proved: a sweep of one plane and one group (C159_plane, C159_sweep), the inner iterations (C159_group), the groups in turn (C159_groups), outer iterations with the same k (C159_outer, C159_outers), fixed sources (C159_fixed), symmetric cores (C159_symmetric), the boundary update and quadrature of the code in a plane (C159_boundary). That Jacobi updating is needed: C159_not_gauss_seidel. That the rays of the mirrored core are the mirrored rays is a hypothesis (the walks along all rays are a permutation of the mirrored walks); it is not derived from the ray tracing for two input files. Each end of a ray has its own slot (PlaneOk). Prescribed boundary values are excluded; exact arithmetic (rounded sums depend on the order of the rays)"
  },
  {
   "property": "C160",
   "status": "partial",
   "theorems": [
    "Verif.Medium.C160_moc_sweep",
    "Verif.Medium.C160_moc_group",
    "Verif.Medium.C160_moc_groups",
    "Verif.Medium.C160_moc",
    "Verif.Medium.C160_moc_fixed",
    "Verif.Medium.C160_schemes",
    "Verif.Medium.C160_ord3",
    "Verif.Medium.C160_ord2",
    "Verif.Medium.C160_sn_sweep",
    "Verif.Medium.C160_sn_group",
    "Verif.Medium.C160_sn_groups",
    "Verif.Medium.C160_sn",
    "Verif.Medium.C160_sn_fixed",
    "Verif.Medium.C160_claim_false"
   ],
   "note": "proved for MoC (C160_moc_sweep, C160_moc_group, C160_moc_groups, C160_moc, C160_moc_fixed: the same state, with either update) and for Sn (C160_ord3, C160_ord2, C160_sn_sweep, C160_sn_group, C160_sn_groups, C160_sn, C160_sn_fixed) with any scheme that is the same in both units; C160_schemes: diamond difference, step characteristics and the corrected schemes with diamond, fix-up, step and characteristic closure in z are, for any correction factors. Refuted for the scheme with parabolic moments (C160_claim_false): it subtracts dz * oz * q / (2 tz + xstr), which has two more lengths than q, and divides by a sum with oz * oz / (tz + xstr / 2), a length, and xstr, an inverse length. No hypotheses on the regions or on signs of the cross sections (c > 0: the stored rows of the scattering matrix are the same). The tabulated exponential is any function of the optical thickness, so it is included; CMFD and Monte Carlo are not part of this claim"
  },
  {
   "property": "C161",
   "status": "proved",
   "theorems": [
    "Verif.Medium.C161_sweep",
    "Verif.Medium.C161_group",
    "Verif.Medium.C161_groups",
    "Verif.Medium.C161_fixed",
    "Verif.Medium.C161_given_k",
    "Verif.Medium.C161_unlike",
    "Verif.Medium.C161_production",
    "Verif.Medium.C161_outer",
    "Verif.Medium.C161_outers",
    "Verif.Medium.C161_stacked"
   ],
   "note": "proved: a sweep of one group (C161_sweep), the inner iterations (C161_group), the groups in turn (C161_groups), steps with an external source (C161_fixed), an outer iteration with given k (C161_given_k, C161_unlike), stacks of planes that are alike except for their heights (C161_production, C161_outer, C161_outers), and that the sweeper of such a stack, with regions numbered plane by plane, fulfils the hypotheses (C161_stacked). Hypotheses: segments of a plane lie in its regions, no other plane has segments there (proved of stacks of alike planes), each region has one material, non-negative scattering. The boundary update is the same function in every plane (boundary arrays of all planes have the same sizes), as in the model of the sweep. Height is a factor of the weights of the rays and of the volumes; exact arithmetic (rounded sums over planes for k depend on their number)"
  },
  {
   "property": "C162",
   "status": "proved",
   "theorems": [
    "Verif.Medium.C162_tr",
    "Verif.Medium.C162_self",
    "Verif.Medium.C162_in",
    "Verif.Medium.C162_fission_source",
    "Verif.Medium.C162_fission",
    "Verif.Medium.C162_production",
    "Verif.Medium.C162_groups",
    "Verif.Medium.C162_outers",
    "Verif.Medium.C162_steps",
    "Verif.Medium.C162_moc_group",
    "Verif.Medium.C162_sn_group",
    "Verif.Medium.C162_moc",
    "Verif.Medium.C162_sn",
    "Verif.Medium.C162_fixed",
    "Verif.Medium.C162_order",
    "Verif.Medium.C162_split"
   ],
   "note": "proved: each source and total (C162_tr, C162_self, C162_in, C162_fission_source, C162_fission, C162_production), the groups in turn and any number of iterations with sweepers that do the same (C162_groups, C162_outers, C162_steps), MoC and Sn (C162_moc_group, C162_sn_group, C162_moc, C162_sn, C162_fixed); the same order of materials is not needed (C162_order), nor the same names (C162_split; with an empty second list, materials used nowhere). Hypotheses: every region has one material (what the constructor of the cross-section mesh makes, C94), non-negative scattering (negative entries may fall outside the stored rows, C22). The list of materials with their regions is what the constructor has made; reading of the library is C97. Exact arithmetic: in rounded arithmetic the total of fission depends on the order of the materials"
  },
  {
   "property": "C163",
   "status": "proved",
   "theorems": [
    "Verif.Medium.C163_source",
    "Verif.Medium.C163_production",
    "Verif.Medium.C163_outers",
    "Verif.Medium.C163_moc",
    "Verif.Medium.C163_sn",
    "Verif.Medium.C163_critical"
   ],
   "note": "proved: the source of fission neutrons (C163_source), the total (C163_production), any number of outer iterations with any sweeper that does not use nu-fission and spectra (C163_outers), MoC and Sn (C163_moc, C163_sn), the core made critical (C163_critical, MoC). No hypotheses on regions, signs or convergence. Without CMFD; exact arithmetic"
  },
  {
   "property": "C164",
   "status": "proved",
   "theorems": [
    "Verif.Medium.C164_source",
    "Verif.Medium.C164_store",
    "Verif.Medium.C164_groups",
    "Verif.Medium.C164_cut",
    "Verif.Medium.C164_moc",
    "Verif.Medium.C164_sn_groups",
    "Verif.Medium.C164_sn_cut",
    "Verif.Medium.C164_sn",
    "Verif.Medium.C164_boundary"
   ],
   "note": "proved: the source of a group (C164_source), a loop over the groups (C164_groups), any number of steps with the library cut after group G (C164_cut, C164_sn_cut) and with two libraries (C164_moc, C164_sn), in every iteration; the boundary update of the code reads outgoing values of the same sweep only (C164_boundary, Sn). Fixed source only: fission couples all groups. For MoC the update of the code satisfies the hypotheses (C164_store), and rays must fill all slots of the boundary conditions, which C32 is about; the signs of cross sections and volumes are hypotheses (Physical) for both; for Sn the ordinates are arbitrary functions, and states must agree at positions that are no regions, which do not exist in the arrays of the code; exact arithmetic"
  },
  {
   "property": "C165",
   "status": "proved",
   "theorems": [
    "Verif.Medium.C165_source",
    "Verif.Medium.C165_production",
    "Verif.Medium.C165_outers",
    "Verif.Medium.C165_moc",
    "Verif.Medium.C165_sn",
    "Verif.Medium.C165_libraries"
   ],
   "note": "proved: the source and the total of fission (C165_source, C165_production), any number of outer iterations with the library cut after group G (C165_outers, C165_moc, C165_sn) and with two libraries (C165_libraries). Hypotheses on rays, ordinates and boundary updates as in C164. Without CMFD; exact arithmetic"
  }
 ]
}