import Verif.BC.InitProps
import Verif.BC.Props
import Verif.BC.UpdateProps
import Verif.Cmdo.CorrProps
import Verif.Cmdo.CouplingProps
import Verif.Cmdo.DataProps
import Verif.Cmdo.InnerProps
import Verif.Cmdo.ReproProps
import Verif.Cmdo.SweepProps
import Verif.Cmdo.VolumeProps
import Verif.Cmfd.DiffusionProps
import Verif.Cmfd.FloatProps
import Verif.Cmfd.LoopProps
import Verif.Cmfd.Props
import Verif.Cmfd.StrictProps
import Verif.Cmfd.SubProps
import Verif.Cmfd.SystemProps
import Verif.Cmfd.UniqueProps
import Verif.Core.BuildProps
import Verif.Core.ExpMaxProps
import Verif.Core.ExpProps
import Verif.Core.LatticeProps
import Verif.Core.PinsProps
import Verif.Core.PlanesProps
import Verif.Core.UniqueProps
import Verif.Core.VolumesProps
import Verif.Core.WhereFloatProps
import Verif.Core.WhereProps
import Verif.Dir.Props
import Verif.Draw.Props
import Verif.Driver.Props
import Verif.Errors.Props
import Verif.Fp.Props
import Verif.Geom.BoxProps
import Verif.Geom.CircleDistProps
import Verif.Geom.CircleProps
import Verif.Geom.DistProps
import Verif.Geom.MeetProps
import Verif.H5.OutputProps
import Verif.H5.Props
import Verif.Incoming.Props
import Verif.Input.AmendProps
import Verif.Input.ArgsProps
import Verif.Input.FactoryProps
import Verif.Log.Props
import Verif.Mat.LibProps
import Verif.Mat.ScrubProps
import Verif.Mc.BankProps
import Verif.Mc.CollideProps
import Verif.Mc.CycleProps
import Verif.Mc.EntropyProps
import Verif.Mc.ExpectProps
import Verif.Mc.FloatProps
import Verif.Mc.HistoryProps
import Verif.Mc.OrderProps
import Verif.Mc.PushProps
import Verif.Mc.ResizeProps
import Verif.Mc.SourceProps
import Verif.Mc.StatsFloatProps
import Verif.Mc.TallyProps
import Verif.Mc.WholeProps
import Verif.Medium.AccelFixProps
import Verif.Medium.AccelMocProps
import Verif.Medium.AccelProps
import Verif.Medium.BalanceProps
import Verif.Medium.BalanceSnProps
import Verif.Medium.BoundaryProps
import Verif.Medium.CellsProps
import Verif.Medium.CheckProps
import Verif.Medium.ContractProps
import Verif.Medium.ConvergeProps
import Verif.Medium.CoupledProps
import Verif.Medium.DoubleSnProps
import Verif.Medium.DownProps
import Verif.Medium.DownSnProps
import Verif.Medium.DrainProps
import Verif.Medium.EigenProps
import Verif.Medium.HalfSnProps
import Verif.Medium.LinearProps
import Verif.Medium.LinearSnProps
import Verif.Medium.MirrorMocProps
import Verif.Medium.MirrorSnProps
import Verif.Medium.MonotoneProps
import Verif.Medium.OneRegionProps
import Verif.Medium.PositiveProps
import Verif.Medium.Props
import Verif.Medium.ReciprocalProps
import Verif.Medium.ReciprocalSnProps
import Verif.Medium.ReflectProps
import Verif.Medium.StackProps
import Verif.Medium.SterileProps
import Verif.Medium.StrictPosProps
import Verif.Medium.UnitProps
import Verif.Medium.YieldProps
import Verif.Mesh.CrossProps
import Verif.Mesh.IntProps
import Verif.Mesh.PointProps
import Verif.Mesh.Props
import Verif.Mesh.TraceProps
import Verif.Mesh.WidthProps
import Verif.Moc.BeamProps
import Verif.Moc.CoarseProps
import Verif.Moc.DumpProps
import Verif.Moc.ExpandProps
import Verif.Moc.FloatProps
import Verif.Moc.KernelProps
import Verif.Moc.ParProps
import Verif.Moc.SweepCurProps
import Verif.Moc.TablesProps
import Verif.Moc.VolumeProps
import Verif.Normalize.Props
import Verif.Par.RaceProps
import Verif.PinFlux.GetProps
import Verif.PinFlux.Props
import Verif.PinMesh.CylDirProps
import Verif.PinMesh.CylFindProps
import Verif.PinMesh.CylProps
import Verif.PinMesh.CylTraceProps
import Verif.PinMesh.DistProps
import Verif.PinMesh.RectDirProps
import Verif.PinMesh.RectProps
import Verif.PinMesh.TraceProps
import Verif.Quad.GaussProps
import Verif.Quad.GaussRuleProps
import Verif.Quad.LevelSymProps
import Verif.Quad.MomentProps
import Verif.Quad.ProductProps
import Verif.Quad.Props
import Verif.Quad.ReweightProps
import Verif.Quad.SaveProps
import Verif.Quad.UserProps
import Verif.Rational.ChoiceProps
import Verif.Rational.Props
import Verif.Rays.OptionsProps
import Verif.Rays.Props
import Verif.Rays.SpacingProps
import Verif.Rng.Props
import Verif.Scatter.Props
import Verif.Sn.AngleProps
import Verif.Sn.CellProps
import Verif.Sn.ClosureProps
import Verif.Sn.CurrentProps
import Verif.Sn.FloatProps
import Verif.Sn.SweepProps
import Verif.Solver.FixedProps
import Verif.Solver.Props
import Verif.Source.FloatProps
import Verif.Source.PairProps
import Verif.Source.Props
import Verif.Source.SolveProps
import Verif.Strings.Props
import Verif.Strings.RangeProps
import Verif.SurfFlux.Props
import Verif.Sweep.CoarseProps
import Verif.Sweep.PowerProps
import Verif.Timers.Props
import Verif.Tl.EntryProps
import Verif.Tl.Props
import Verif.XS.CdfProps
import Verif.XS.ExpandProps
import Verif.XS.HomogFloatProps
import Verif.XS.HomogMeanProps
import Verif.XS.HomogProps
import Verif.XS.MapProps
import Verif.XS.PinMapProps
import Verif.XS.RegionProps
import Verif.XS.SaveProps
import Verif.XS.ShareProps

/-! Axioms used by every property theorem (printed when this file is built). -/

#print axioms Verif.Rng.C01_draws_are_lcg
#print axioms Verif.Rng.C01_jump_ahead_draws
#print axioms Verif.Rng.C01_jump_ahead_state
#print axioms Verif.Rng.C01_jump_ahead_add
#print axioms Verif.Rng.C02_full_period
#print axioms Verif.Rng.C02_period_exact
#print axioms Verif.Rng.C03_random_below_one_partial
#print axioms Verif.Rng.C03_random_reaches_one
#print axioms Verif.Rng.C03_random_claim_false
#print axioms Verif.Rng.C03_random_int_reaches_bound
#print axioms Verif.Rng.C03_random_int_partial
#print axioms Verif.Rng.C04_histories_overlap
#print axioms Verif.Rng.C04_histories_repeat
#print axioms Verif.Rng.C04_claim_false
#print axioms Verif.Rng.C04_disjoint_partial
#print axioms Verif.Fp.C05_undefined_iff
#print axioms Verif.Fp.C05_symmetric
#print axioms Verif.Fp.C05_reflexive
#print axioms Verif.Fp.C05_same_sign_partial
#print axioms Verif.Fp.C05_opposite_sign
#print axioms Verif.Fp.C05_equates_opposite_numbers
#print axioms Verif.Fp.C05_claim_false
#print axioms Verif.Fp.C05_value_lt_iff_rank_lt
#print axioms Verif.Fp.C05_fp_equiv
#print axioms Verif.Fp.C05_negative_zero_undefined
#print axioms Verif.Strings.C06_behaviour
#print axioms Verif.Strings.C06_roundtrip_partial
#print axioms Verif.Strings.C06_only_wellformed
#print axioms Verif.Strings.C06_digit_lost
#print axioms Verif.Strings.C06_claim_false
#print axioms Verif.Strings.C06_never_terminates
#print axioms Verif.Strings.C07_ranges
#print axioms Verif.Strings.C07_text
#print axioms Verif.Strings.C07_unique
#print axioms Verif.Strings.C07_print
#print axioms Verif.Rational.C08_choice
#print axioms Verif.Rational.C08_denominator_bounded
#print axioms Verif.Rational.C08_tolerance
#print axioms Verif.Rational.C08_best_on_one_side_partial
#print axioms Verif.Rational.C08_exact
#print axioms Verif.Rational.C08_error_bound
#print axioms Verif.Rational.C08_not_closest
#print axioms Verif.Rational.C08_claim_false
#print axioms Verif.Normalize.C09_total
#print axioms Verif.Normalize.C09_ratios
#print axioms Verif.Normalize.C09_idempotent
#print axioms Verif.Normalize.C09_undefined_iff
#print axioms Verif.Normalize.C09_scaled_total
#print axioms Verif.Normalize.C09_scaled_zero_factor
#print axioms Verif.Normalize.C09_scale
#print axioms Verif.Mesh.C10_position_of_cell
#print axioms Verif.Mesh.C10_cell_of_position
#print axioms Verif.Mesh.C10_natural_order
#print axioms Verif.Mesh.C11_surface_in_range
#print axioms Verif.Mesh.C11_same_number_iff_same_face
#print axioms Verif.Mesh.C11_no_gaps
#print axioms Verif.Mesh.C11_count
#print axioms Verif.Mesh.C12_neighbour_cells
#print axioms Verif.Mesh.C12_cells_touch_surface
#print axioms Verif.Mesh.C13_normal
#print axioms Verif.Mesh.C13_area
#print axioms Verif.Mesh.C13_volume
#print axioms Verif.Mesh.C13_width_value
#print axioms Verif.Mesh.C13_width_count
#print axioms Verif.Mesh.C13_width_sum
#print axioms Verif.Mesh.C13_width_pos
#print axioms Verif.Mesh.C13_total_volume
#print axioms Verif.Mesh.C14_neighbour
#print axioms Verif.Mesh.C14_step_back
#print axioms Verif.Mesh.C14_interface
#print axioms Verif.Mesh.C14_interface_throws
#print axioms Verif.Mesh.C15_corner_missed
#print axioms Verif.Mesh.C15_claim_false
#print axioms Verif.Mesh.C15_boundary_surface_partial
#print axioms Verif.BC.C16_total
#print axioms Verif.BC.C16_disjoint
#print axioms Verif.BC.C16_exact
#print axioms Verif.BC.C16_contiguous
#print axioms Verif.BC.C17_update_partial
#print axioms Verif.BC.C17_update_angle_partial
#print axioms Verif.BC.C17_entry_face
#print axioms Verif.BC.C17_conservation_partial
#print axioms Verif.BC.C17_claim_false
#print axioms Verif.Quad.C18_reflect
#print axioms Verif.Quad.C18_involution
#print axioms Verif.Quad.C18_commute
#print axioms Verif.Quad.C18_reflect_surface
#print axioms Verif.Quad.C19_reverse_2d
#print axioms Verif.Quad.C19_reverse_2d_upper
#print axioms Verif.Quad.C19_reverse_3d_partial
#print axioms Verif.Quad.C19_not_involution
#print axioms Verif.Quad.C19_claim_false
#print axioms Verif.Quad.C20_images
#print axioms Verif.Quad.C20_weights
#print axioms Verif.Quad.C20_first_moments
#print axioms Verif.Quad.C20_cross_moments
#print axioms Verif.Quad.C20_second_moments
#print axioms Verif.Quad.C20_unit
#print axioms Verif.Quad.C20_modify
#print axioms Verif.Quad.LS.C21_low_orders_partial
#print axioms Verif.Quad.LS.C21_high_orders_partial
#print axioms Verif.Quad.LS.C21_unit_exact
#print axioms Verif.Quad.LS.C21_orders_unit_exact
#print axioms Verif.Quad.LS.C21_order12_not_symmetric
#print axioms Verif.Quad.LS.C21_order14_not_symmetric
#print axioms Verif.Quad.LS.C21_order16_ub
#print axioms Verif.Quad.LS.C21_nonpositive_ub
#print axioms Verif.Quad.LS.C21_rejects
#print axioms Verif.Quad.LS.C21_claim_false
#print axioms Verif.Scatter.C22_as_vector_partial
#print axioms Verif.Scatter.C22_out_partial
#print axioms Verif.Scatter.C22_to_partial
#print axioms Verif.Scatter.C22_to_sound
#print axioms Verif.Scatter.C22_lost_exactly
#print axioms Verif.Scatter.C22_claim_false
#print axioms Verif.Scatter.C23_values
#print axioms Verif.Scatter.C23_distribution
#print axioms Verif.XS.C24_exactly_one
#print axioms Verif.XS.C24_only
#print axioms Verif.XS.C24_one_per_material
#print axioms Verif.XS.C24_count
#print axioms Verif.XS.C25_expand_partial
#print axioms Verif.XS.C25_expand_after_update_partial
#print axioms Verif.XS.C25_split
#print axioms Verif.XS.C25_claim_false
#print axioms Verif.XS.C25_stale
#print axioms Verif.XS.C26_rates
#print axioms Verif.XS.C26_scattering
#print axioms Verif.XS.C26_spectrum
#print axioms Verif.XS.C26_spectrum_sum
#print axioms Verif.XS.C26_area_rates
#print axioms Verif.XS.C26_area_scattering
#print axioms Verif.XS.C26_area_spectrum_sum
#print axioms Verif.XS.C26_area_spectrum
#print axioms Verif.XS.C27_distribution
#print axioms Verif.XS.C27_selection
#print axioms Verif.XS.C27_in_range
#print axioms Verif.XS.C27_zero_not_selected
#print axioms Verif.XS.C27_chi
#print axioms Verif.XS.C27_chi_sample
#print axioms Verif.XS.C27_zero_draw
#print axioms Verif.Source.C28_assemble_partial
#print axioms Verif.Source.C28_self_scatter
#print axioms Verif.Source.C28_conservation
#print axioms Verif.Source.C28_auxiliary
#print axioms Verif.Source.C28_claim_false
#print axioms Verif.Source.C28_external_out_of_bounds
#print axioms Verif.Sn.C29_dd
#print axioms Verif.Sn.C29_dd_2d
#print axioms Verif.Sn.C29_dd_sc
#print axioms Verif.Sn.C29_cdd_2d
#print axioms Verif.Sn.C29_cdd_dd
#print axioms Verif.Sn.C29_cdd_ff
#print axioms Verif.Sn.C29_cdd_fw
#print axioms Verif.Sn.C29_cdd_sc
#print axioms Verif.Sn.C29_sc_physical
#print axioms Verif.Sn.C29_average_nonneg
#print axioms Verif.Sn.C29_equilibrium
#print axioms Verif.Sn.C29_pmb_claim_false
#print axioms Verif.Sn.C29_pmb_partial
#print axioms Verif.Sn.C29_pmb_index
#print axioms Verif.Sn.C29_dd_closure
#print axioms Verif.Sn.C29_dd_2d_closure
#print axioms Verif.Sn.C29_cdd_2d_closure
#print axioms Verif.Sn.C29_cdd_dd_closure
#print axioms Verif.Sn.C29_cdd_ff_closure
#print axioms Verif.Sn.C29_cdd_fw_closure
#print axioms Verif.Sn.C29_sc_closure
#print axioms Verif.Sn.C29_sc_exact
#print axioms Verif.Sn.C29_sc_average_nonneg
#print axioms Verif.Sn.C30_upwind
#print axioms Verif.Sn.C30_outgoing
#print axioms Verif.Sn.C30_frame
#print axioms Verif.Sn.C30_upwind_2d
#print axioms Verif.Sn.C30_global_balance
#print axioms Verif.Sn.C30_global_balance_2d
#print axioms Verif.Sn.C30_diamond_balance
#print axioms Verif.Moc.C31_beam
#print axioms Verif.Moc.C31_ends
#print axioms Verif.Moc.C31_ray
#print axioms Verif.Moc.C31_angle
#print axioms Verif.Moc.C31_balance
#print axioms Verif.Moc.C31_equilibrium
#print axioms Verif.Moc.C31_nonneg
#print axioms Verif.Rays.C32_octant1
#print axioms Verif.Rays.C32_octant2
#print axioms Verif.Rays.C32_atan
#print axioms Verif.Moc.C33_flat
#print axioms Verif.Moc.C33_flat_any
#print axioms Verif.Moc.C33_angle
#print axioms Verif.Moc.C33_only_lengths
#print axioms Verif.Moc.C33_kernel
#print axioms Verif.Moc.C33_kernel_le
#print axioms Verif.Rays.C34_trig_count
#print axioms Verif.Rays.C34_trig_spacing
#print axioms Verif.Rays.C34_trig_angle
#print axioms Verif.Rays.C34_rational_shallow_partial
#print axioms Verif.Rays.C34_rational_square_partial
#print axioms Verif.Rays.C34_pin_modular
#print axioms Verif.Rays.C34_flat_undefined
#print axioms Verif.Rays.C34_nonsquare
#print axioms Verif.Rays.C34_claim_false
#print axioms Verif.Rays.C34_wrong_angle
#print axioms Verif.Moc.C35_moc_sweep
#print axioms Verif.Moc.C35_moc_currents
#print axioms Verif.Sn.C35_sn_sweep
#print axioms Verif.PinFlux.C36_visits
#print axioms Verif.PinFlux.C36_get_plane
#print axioms Verif.PinFlux.C36_get_pin
#print axioms Verif.PinFlux.C36_sn_get_plane
#print axioms Verif.PinFlux.C36_moc_plane
#print axioms Verif.PinFlux.C36_moc_pin_partial
#print axioms Verif.PinFlux.C36_moc_refuses
#print axioms Verif.PinFlux.C36_moc_claim_false
#print axioms Verif.PinFlux.C36_sn_pin_partial
#print axioms Verif.PinFlux.C36_sn_one_region
#print axioms Verif.PinFlux.C36_sn_residual_claim_false
#print axioms Verif.PinFlux.C36_sn_plane_partial
#print axioms Verif.PinFlux.C36_sn_plane_residual
#print axioms Verif.Tl.C37_entry
#print axioms Verif.Tl.C37_column_entries
#print axioms Verif.Tl.C37_plain
#print axioms Verif.Tl.C37_throws
#print axioms Verif.Tl.C37_column
#print axioms Verif.Tl.C37_column_unrelaxed
#print axioms Verif.Tl.C37_split_partial
#print axioms Verif.Tl.C37_split_any
#print axioms Verif.Tl.C37_claim_false
#print axioms Verif.Moc.Expand.C38_radial_partial
#print axioms Verif.Moc.Expand.C38_axial_partial
#print axioms Verif.Moc.Expand.C38_axial_first
#print axioms Verif.Moc.Expand.C38_in_bounds
#print axioms Verif.Moc.Expand.C38_claim_false
#print axioms Verif.Moc.Expand.C38_claim_false_flux
#print axioms Verif.Moc.Expand.C38_density
#print axioms Verif.Moc.Expand.C38_density_uniform
#print axioms Verif.Cmdo.C39_fw_bw
#print axioms Verif.Cmdo.C39_reproduce_partial
#print axioms Verif.Cmdo.C39_rays_partial
#print axioms Verif.Cmdo.C39_claim_false
#print axioms Verif.Cmdo.C39_chord
#print axioms Verif.Cmdo.C39_gather
#print axioms Verif.Cmdo.C39_factors_partial
#print axioms Verif.Cmfd.C40_row
#print axioms Verif.Cmfd.C40_reconstruct
#print axioms Verif.Cmfd.C40_zero_flux
#print axioms Verif.Cmfd.C40_reconstruct_mesh
#print axioms Verif.Cmfd.C40_fixed_point
#print axioms Verif.Cmfd.C40_total
#print axioms Verif.Cmfd.C40_partial_currents
#print axioms Verif.Cmfd.C40_surface_flux
#print axioms Verif.Cmfd.C40_boundary
#print axioms Verif.Cmfd.C40_coupling
#print axioms Verif.Cmfd.C40_coarse_axial
#print axioms Verif.Cmfd.C40_subplane_partial
#print axioms Verif.Cmfd.C40_subplane_radial
#print axioms Verif.Cmfd.C40_top_lost
#print axioms Verif.Cmfd.C40_inside
#print axioms Verif.Cmfd.C40_claim_false
#print axioms Verif.Cmfd.C40_row_faces
#print axioms Verif.Cmfd.C40_current
#print axioms Verif.Cmfd.C40_diffusivity
#print axioms Verif.Cmfd.C40_harmonic
#print axioms Verif.Mc.C41_shrink_partial
#print axioms Verif.Mc.C41_grow_partial
#print axioms Verif.Mc.C41_grow_choice
#print axioms Verif.Mc.C41_shrink_one
#print axioms Verif.Mc.C41_shrink_steps
#print axioms Verif.Mc.C41_completes_partial
#print axioms Verif.Mc.C41_out_of_bounds
#print axioms Verif.Mc.C41_claim_false
#print axioms Verif.Mc.C41_empty_undefined
#print axioms Verif.Mc.C42_sort_stable
#print axioms Verif.Mc.C42_stable_sort_unique
#print axioms Verif.Mc.C42_interleaving
#print axioms Verif.Mc.C42_bank
#print axioms Verif.Mc.C42_cycle
#print axioms Verif.Mc.C42_run
#print axioms Verif.Mc.C42_totals
#print axioms Verif.Mc.C43_located
#print axioms Verif.Mc.C43_bounds_partial
#print axioms Verif.Mc.C43_value
#print axioms Verif.Mc.C43_zero_iff
#print axioms Verif.Mc.C43_max_iff
#print axioms Verif.Mc.C43_claim_false
#print axioms Verif.Mc.C43_guard_out_of_bounds
#print axioms Verif.Mc.C44_scalar_mean
#print axioms Verif.Mc.C44_scalar_order
#print axioms Verif.Mc.C44_scalar_variance
#print axioms Verif.Mc.C44_scalar_deviation
#print axioms Verif.Mc.C44_scalar_single
#print axioms Verif.Mc.C44_scalar_claim_false
#print axioms Verif.Mc.C44_spatial_mean
#print axioms Verif.Mc.C44_spatial_order
#print axioms Verif.Mc.C44_spatial_deviation_partial
#print axioms Verif.Mc.C44_spatial_deviation_unit_partial
#print axioms Verif.Mc.C44_spatial_claim_false
#print axioms Verif.Solver.C45_inactive_partial
#print axioms Verif.Solver.C45_total
#print axioms Verif.Solver.C45_never
#print axioms Verif.Solver.C45_claim_false
#print axioms Verif.Solver.C45_overflow
#print axioms Verif.Solver.C46_max
#print axioms Verif.Solver.C46_min
#print axioms Verif.Solver.C46_stops_only_converged
#print axioms Verif.Solver.C46_stops_when_converged
#print axioms Verif.Solver.C46_dumps_partial
#print axioms Verif.Solver.C46_dumps_exactly_partial
#print axioms Verif.Solver.C46_dumps_claim_false
#print axioms Verif.Solver.C46_zero_request
#print axioms Verif.Source.C47_fission_source
#print axioms Verif.Source.C47_source_kept
#print axioms Verif.Source.C47_invariant
#print axioms Verif.Core.C48_partition
#print axioms Verif.Core.C48_order
#print axioms Verif.Core.C48_heights
#print axioms Verif.Core.C48_moc_index
#print axioms Verif.Core.C48_stacking
#print axioms Verif.Core.C48_same_lattice
#print axioms Verif.Core.C48_z_vec
#print axioms Verif.Core.C48_assembly_heights
#print axioms Verif.Core.C48_empty_undefined
#print axioms Verif.Core.C49_map
#print axioms Verif.Core.C49_map_count
#print axioms Verif.Core.C49_map_unknown
#print axioms Verif.Core.C49_first_regs
#print axioms Verif.Core.C49_locate_partial
#print axioms Verif.Core.C49_locate_interior
#print axioms Verif.Core.C49_locate_interface
#print axioms Verif.Core.C49_locate_upper
#print axioms Verif.Core.C49_locate_lower
#print axioms Verif.Core.C49_claim_false
#print axioms Verif.Core.C49_interfaces
#print axioms Verif.Core.C49_lattice
#print axioms Verif.Core.C49_plane
#print axioms Verif.Core.C49_plane_undefined
#print axioms Verif.Core.C50_accuracy_partial
#print axioms Verif.Core.C50_absolute_partial
#print axioms Verif.Core.C50_nodes_partial
#print axioms Verif.Core.C50_outside
#print axioms Verif.Core.C50_monotone_partial
#print axioms Verif.Core.C50_upper_undefined
#print axioms Verif.Core.C50_claim_false
#print axioms Verif.Core.C50_moc
#print axioms Verif.Core.C50_unsafe_undefined
#print axioms Verif.Input.C51_exact
#print axioms Verif.Input.C51_applicable
#print axioms Verif.Input.C51_components
#print axioms Verif.Input.C51_components_join
#print axioms Verif.Input.C51_argument
#print axioms Verif.Input.C51_arg_exact
#print axioms Verif.Input.C51_in_turn
#print axioms Verif.Input.C51_last_wins
#print axioms Verif.Driver.C52_interrupt_partial
#print axioms Verif.Driver.C52_run
#print axioms Verif.Driver.C52_early_undefined
#print axioms Verif.Driver.C52_during_output_undefined
#print axioms Verif.Driver.C52_second_run_stale
#print axioms Verif.Driver.C52_claim_false
#print axioms Verif.Driver.C52_bad_input
#print axioms Verif.BC.C53_scalar
#print axioms Verif.BC.C53_scalar_layout
#print axioms Verif.BC.C53_spectrum
#print axioms Verif.Scatter.C54_claim_false
#print axioms Verif.Scatter.C54_eq_partial
#print axioms Verif.Scatter.C54_copy
#print axioms Verif.Source.C55_self_scatter_partial
#print axioms Verif.Source.C55_error
#print axioms Verif.Source.C55_claim_false
#print axioms Verif.Quad.LS.C56_low_orders_partial
#print axioms Verif.Quad.LS.C56_sixth
#print axioms Verif.Quad.LS.C56_second
#print axioms Verif.Quad.LS.C56_order10_fourth
#print axioms Verif.Quad.LS.C56_high_second
#print axioms Verif.Quad.LS.C56_claim_false
#print axioms Verif.Cmfd.C57_interior
#print axioms Verif.Cmfd.C57_reflect
#print axioms Verif.Cmfd.C57_vacuum_high_partial
#print axioms Verif.Cmfd.C57_vacuum_low
#print axioms Verif.Cmfd.C57_claim_false
#print axioms Verif.Cmfd.C57_data
#print axioms Verif.Cmfd.C58_offdiag
#print axioms Verif.Cmfd.C58_row_sum
#print axioms Verif.Cmfd.C58_nonneg
#print axioms Verif.Cmfd.C58_unique
#print axioms Verif.Cmfd.C58_couplings
#print axioms Verif.Cmfd.C58_symmetric
#print axioms Verif.Cmfd.C59_k
#print axioms Verif.Cmfd.C59_iteration
#print axioms Verif.Cmfd.C59_count_partial
#print axioms Verif.Cmfd.C59_zero_residual
#print axioms Verif.Cmfd.C59_stops
#print axioms Verif.Cmfd.C59_first_change
#print axioms Verif.Cmfd.C59_later_change
#print axioms Verif.Cmfd.C59_nonneg
#print axioms Verif.Cmfd.C59_fixed
#print axioms Verif.Cmfd.C59_claim_false
#print axioms Verif.Cmfd.C59_production_partial
#print axioms Verif.Cmfd.C59_production_shape_partial
#print axioms Verif.Cmfd.C59_production_claim_false
#print axioms Verif.Solver.C60_converges
#print axioms Verif.Solver.C60_limit_partial
#print axioms Verif.Solver.C60_rejected
#print axioms Verif.Solver.C60_negative_accepted
#print axioms Verif.Solver.C60_nan_silent
#print axioms Verif.Solver.C60_claim_false
#print axioms Verif.Core.C61_value
#print axioms Verif.Core.C61_attained
#print axioms Verif.Core.C61_bound_partial
#print axioms Verif.Core.C61_exceeded
#print axioms Verif.Core.C61_claim_false
#print axioms Verif.Geom.C62_parallel
#print axioms Verif.Geom.C62_on_both
#print axioms Verif.Geom.C62_found_partial
#print axioms Verif.Geom.C62_none
#print axioms Verif.Geom.C62_symm
#print axioms Verif.Geom.C62_claim_false
#print axioms Verif.Geom.C63_sound
#print axioms Verif.Geom.C63_complete
#print axioms Verif.Geom.C63_count_partial
#print axioms Verif.Geom.C63_order
#print axioms Verif.Geom.C63_assert
#print axioms Verif.Geom.C63_tangent_twice
#print axioms Verif.Geom.C63_flags
#print axioms Verif.Geom.C63_claim_false
#print axioms Verif.Geom.C64_circle_hit
#print axioms Verif.Geom.C64_circle_miss
#print axioms Verif.Geom.C64_circle_surface
#print axioms Verif.Geom.C64_line_hit
#print axioms Verif.Geom.C64_line_miss
#print axioms Verif.Geom.C64_line_coincident
#print axioms Verif.Geom.C64_box
#print axioms Verif.Geom.C64_box_corners
#print axioms Verif.PinMesh.C65_accepted
#print axioms Verif.PinMesh.C65_areas
#print axioms Verif.PinMesh.C65_cell_partial
#print axioms Verif.PinMesh.C65_outside
#print axioms Verif.PinMesh.C65_left_edge
#print axioms Verif.PinMesh.C65_claim_false
#print axioms Verif.PinMesh.C66_region
#print axioms Verif.PinMesh.C66_leaving
#print axioms Verif.PinMesh.C66_range
#print axioms Verif.PinMesh.C66_beyond_undefined
#print axioms Verif.PinMesh.C67_accepted
#print axioms Verif.PinMesh.C67_built_partial
#print axioms Verif.PinMesh.C67_material_radii
#print axioms Verif.PinMesh.C67_radii_order
#print axioms Verif.PinMesh.C67_areas_sum
#print axioms Verif.PinMesh.C67_areas_nonneg
#print axioms Verif.PinMesh.C67_equal_area
#print axioms Verif.PinMesh.C67_fsrs
#print axioms Verif.PinMesh.C67_zero_rings
#print axioms Verif.PinMesh.C67_claim_false
#print axioms Verif.PinMesh.C67_no_sectors
#print axioms Verif.PinMesh.C67_eighths
#print axioms Verif.PinMesh.C67_sixths
#print axioms Verif.PinMesh.C68_angle_partial
#print axioms Verif.PinMesh.C68_angle_axis
#print axioms Verif.PinMesh.C68_angle_claim_false
#print axioms Verif.PinMesh.C68_region_partial
#print axioms Verif.PinMesh.C68_outside
#print axioms Verif.PinMesh.C68_positive_axis
#print axioms Verif.PinMesh.C68_claim_false
#print axioms Verif.PinMesh.C69_interior
#print axioms Verif.PinMesh.C69_line
#print axioms Verif.PinMesh.C69_near_line
#print axioms Verif.PinMesh.C69_side_partial
#print axioms Verif.PinMesh.C69_wrong_side
#print axioms Verif.PinMesh.C69_claim_false
#print axioms Verif.PinMesh.C69_positive_axis
#print axioms Verif.PinMesh.C69_negative_axis
#print axioms Verif.PinMesh.C69_ring
#print axioms Verif.PinMesh.C69_ring_side
#print axioms Verif.PinMesh.C69_region
#print axioms Verif.PinMesh.C69_leaving
#print axioms Verif.Geom.C70_from_boundary_partial
#print axioms Verif.Geom.C70_centre_x
#print axioms Verif.Geom.C70_centre_y
#print axioms Verif.Geom.C70_corner
#print axioms Verif.Geom.C70_claim_false
#print axioms Verif.PinMesh.C71_length
#print axioms Verif.PinMesh.C71_pieces_partial
#print axioms Verif.PinMesh.C71_claim_false
#print axioms Verif.PinMesh.C72_length
#print axioms Verif.PinMesh.C72_pieces_partial
#print axioms Verif.PinMesh.C72_lines
#print axioms Verif.PinMesh.C72_no_corner
#print axioms Verif.PinMesh.C72_eight
#print axioms Verif.PinMesh.C72_claim_false
#print axioms Verif.Mesh.C73_divides_partial
#print axioms Verif.Mesh.C73_claim_false
#print axioms Verif.Mesh.C74_cross
#print axioms Verif.Mesh.C74_start
#print axioms Verif.Mesh.C74_end
#print axioms Verif.Mesh.C74_corner
#print axioms Verif.Mesh.C74_path
#print axioms Verif.Moc.C75_weights
#print axioms Verif.Moc.C75_balance_partial
#print axioms Verif.Moc.C75_claim_false
#print axioms Verif.Incoming.C76_sn
#print axioms Verif.Incoming.C76_ratio
#print axioms Verif.Incoming.C76_same
#print axioms Verif.Incoming.C76_first_partial
#print axioms Verif.Incoming.C76_first_claim_false
#print axioms Verif.Incoming.C76_moc_partial
#print axioms Verif.Incoming.C76_moc_first
#print axioms Verif.Incoming.C76_moc_bottom
#print axioms Verif.Incoming.C76_moc_claim_false
#print axioms Verif.Incoming.C76_moc_planes
#print axioms Verif.Sn.C77_current
#print axioms Verif.Sn.C77_balance
#print axioms Verif.Sn.C77_total
#print axioms Verif.Sn.C77_current_2d
#print axioms Verif.Sn.C77_balance_2d
#print axioms Verif.Dir.C78_of_cosines
#print axioms Verif.Dir.C78_of_angles
#print axioms Verif.Dir.C78_reflect
#print axioms Verif.Dir.C78_reflect_twice
#print axioms Verif.Dir.C78_octant
#print axioms Verif.Dir.C78_upwind
#print axioms Verif.Dir.C78_isotropic
#print axioms Verif.Dir.C78_axis
#print axioms Verif.Dir.C78_modify
#print axioms Verif.Mc.C79_distance_partial
#print axioms Verif.Mc.C79_distance_claim_false
#print axioms Verif.Mc.C79_move_alike
#print axioms Verif.Mc.C79_move_partial
#print axioms Verif.Mc.C79_move_exact
#print axioms Verif.Mc.C79_move_claim_false
#print axioms Verif.Mc.C79_inside_partial
#print axioms Verif.Mc.C79_inner
#print axioms Verif.Mc.C79_inside_claim_false
#print axioms Verif.Mc.C79_pushed_out
#print axioms Verif.Mc.C80_scatter
#print axioms Verif.Mc.C80_fission
#print axioms Verif.Mc.C80_capture
#print axioms Verif.Mc.C80_number
#print axioms Verif.Mc.C80_mean
#print axioms Verif.Mc.C80_estimator
#print axioms Verif.Mc.C80_claim_false
#print axioms Verif.Mc.C81_pass
#print axioms Verif.Mc.C81_history
#print axioms Verif.Mc.C81_start
#print axioms Verif.Mc.C81_total
#print axioms Verif.Mc.C81_in_pin
#print axioms Verif.Mc.C81_constant
#print axioms Verif.Mc.C81_ended
#print axioms Verif.PinMesh.C82_rect
#print axioms Verif.PinMesh.C82_rect_region
#print axioms Verif.PinMesh.C82_outside
#print axioms Verif.PinMesh.C82_cyl
#print axioms Verif.PinMesh.C82_cyl_outside
#print axioms Verif.Core.C83_lattice
#print axioms Verif.Core.C83_count
#print axioms Verif.Core.C83_position
#print axioms Verif.Core.C83_bijective
#print axioms Verif.Core.C83_periodic
#print axioms Verif.Core.C83_list
#print axioms Verif.Core.C83_core_position
#print axioms Verif.Core.C83_pitches
#print axioms Verif.Core.C83_conform
#print axioms Verif.Core.C83_boundary
#print axioms Verif.Core.C83_origin
#print axioms Verif.Core.C83_claim_false
#print axioms Verif.Core.C84_equiv
#print axioms Verif.Core.C84_unique
#print axioms Verif.Core.C84_shared
#print axioms Verif.Core.C85_pin
#print axioms Verif.Core.C85_pin_plane
#print axioms Verif.Core.C85_true
#print axioms Verif.Core.C85_consistent
#print axioms Verif.Core.C85_true_sum
#print axioms Verif.Core.C85_true_count
#print axioms Verif.Core.C85_plane
#print axioms Verif.Core.C85_plane_sum
#print axioms Verif.Core.C86_plane
#print axioms Verif.Core.C86_plane_interface
#print axioms Verif.Core.C86_plane_top
#print axioms Verif.Core.C86_plane_bottom
#print axioms Verif.Core.C86_plane_above
#print axioms Verif.Core.C86_location
#print axioms Verif.Core.C86_pinmesh
#print axioms Verif.Core.C86_claim_false
#print axioms Verif.Core.C86_lower_face
#print axioms Verif.Core.C87_constant
#print axioms Verif.Core.C87_claim_false
#print axioms Verif.Quad.Product.C88_ends
#print axioms Verif.Quad.Product.C88_near
#print axioms Verif.Quad.Product.C88_computed
#print axioms Verif.Quad.Product.C88_computed_octant
#print axioms Verif.Quad.Product.C88_limit
#print axioms Verif.Quad.Product.C88_limit_sum
#print axioms Verif.Quad.Product.C88_computed_integrates
#print axioms Verif.Quad.Product.C88_computed_moments
#print axioms Verif.Quad.Product.C88_yamamoto
#print axioms Verif.Quad.Product.C88_chebyshev
#print axioms Verif.Quad.Product.C88_azimuth_moments
#print axioms Verif.Quad.Product.C88_residual
#print axioms Verif.Quad.Product.C88_gauss
#print axioms Verif.Quad.Product.C88_stays
#print axioms Verif.Quad.Product.C88_product
#print axioms Verif.Quad.Product.C88_chebyshev_gauss
#print axioms Verif.Quad.Product.C88_chebyshev_yamamoto
#print axioms Verif.Quad.Product.C88_rejected
#print axioms Verif.Quad.Product.C88_claim_false
#print axioms Verif.Quad.Product.C89_nearest
#print axioms Verif.Quad.Product.C89_update
#print axioms Verif.Quad.Product.C89_kept
#print axioms Verif.Quad.Product.C89_unchanged
#print axioms Verif.Quad.Product.C89_renumbered
#print axioms Verif.Quad.User.C90_accepted
#print axioms Verif.Quad.User.C90_complete
#print axioms Verif.Quad.User.C90_on_axis
#print axioms Verif.Quad.User.C90_negative_polar
#print axioms Verif.Quad.User.C90_vertical
#print axioms Verif.Quad.User.C90_claim_false
#print axioms Verif.Quad.User.C91_round_trip
#print axioms Verif.Quad.User.C91_constructed
#print axioms Verif.Quad.User.C91_outcomes
#print axioms Verif.Quad.User.C91_assign
#print axioms Verif.Quad.User.C91_level_symmetric
#print axioms Verif.Quad.User.C91_claim_false
#print axioms Verif.Quad.User.C91_user
#print axioms Verif.Input.C92_accepted
#print axioms Verif.Input.C92_usage
#print axioms Verif.Input.C92_other_flags
#print axioms Verif.Input.C92_stripped
#print axioms Verif.Input.C92_extension
#print axioms Verif.Input.C92_dotted_directory
#print axioms Verif.Input.C92_claim_false
#print axioms Verif.Input.C92_collision
#print axioms Verif.Input.C92_files
#print axioms Verif.Input.C92_process
#print axioms Verif.Input.C92_process_usage
#print axioms Verif.Input.C92_tag_wins
#print axioms Verif.Cmdo.Data.C93_accepted
#print axioms Verif.Cmdo.Data.C93_values
#print axioms Verif.Cmdo.Data.C93_whole_core
#print axioms Verif.Cmdo.Data.C93_round_trip_partial
#print axioms Verif.Cmdo.Data.C93_two_planes
#print axioms Verif.Cmdo.Data.C93_claim_false
#print axioms Verif.Cmdo.Data.C93_top_missing
#print axioms Verif.Cmdo.Data.C93_dispatch
#print axioms Verif.XS.Region.C94_holds
#print axioms Verif.XS.Region.C94_removal
#print axioms Verif.XS.Region.C94_fissile_partial
#print axioms Verif.XS.Region.C94_fissile_kept
#print axioms Verif.XS.Region.C94_never_fissile
#print axioms Verif.XS.Region.C94_fissile_claim_false
#print axioms Verif.XS.Region.C94_equal_partial
#print axioms Verif.XS.Region.C94_equal_refl
#print axioms Verif.XS.Region.C94_equal_claim_false
#print axioms Verif.XS.Save.C95_round_trip_partial
#print axioms Verif.XS.Save.C95_claim_false
#print axioms Verif.XS.Save.C95_accepted
#print axioms Verif.XS.Save.C95_values
#print axioms Verif.XS.Save.C95_bounds
#print axioms Verif.XS.Save.C95_no_data
#print axioms Verif.XS.Save.C95_single
#print axioms Verif.XS.Save.C95_more_groups
#print axioms Verif.XS.Save.C95_safe_claim_false
#print axioms Verif.XS.Save.C95_few_matrices
#print axioms Verif.XS.PinMap.C96_partition
#print axioms Verif.XS.PinMap.C96_condensed
#print axioms Verif.XS.PinMap.C96_update
#print axioms Verif.Mat.C97_lines
#print axioms Verif.Mat.C97_header
#print axioms Verif.Mat.C97_chi
#print axioms Verif.Mat.C97_material
#print axioms Verif.Mat.C97_file
#print axioms Verif.Mat.C97_claim_false
#print axioms Verif.Mat.C97_no_header
#print axioms Verif.Mat.C97_assign
#print axioms Verif.Mat.C97_count_partial
#print axioms Verif.Mat.C97_count_claim_false
#print axioms Verif.Core.Build.C98_maps
#print axioms Verif.Core.Build.C98_pin
#print axioms Verif.Core.Build.C98_pin_partial
#print axioms Verif.Core.Build.C98_claim_false
#print axioms Verif.Core.Build.C99_accepted
#print axioms Verif.Core.Build.C99_planes
#print axioms Verif.Core.Build.C99_heights_partial
#print axioms Verif.Core.Build.C99_claim_false
#print axioms Verif.Core.Build.C99_compatible
#print axioms Verif.Core.Build.C99_undefined
#print axioms Verif.Core.Build.C99_transitive_claim_false
#print axioms Verif.Core.Build.C100_arrange
#print axioms Verif.Core.Build.C100_negative
#print axioms Verif.Core.Build.C100_claim_false
#print axioms Verif.Core.Build.C100_lattice_partial
#print axioms Verif.Core.Build.C100_core_partial
#print axioms Verif.Core.Build.C100_accepted_partial
#print axioms Verif.Core.Build.C100_defined_partial
#print axioms Verif.Core.Build.C100_bc
#print axioms Verif.Core.Build.C100_parse
#print axioms Verif.Sweep.Power.C101_regions
#print axioms Verif.Sweep.Power.C101_moc
#print axioms Verif.Sweep.Power.C101_fuel
#print axioms Verif.Sweep.Power.C101_claim_false
#print axioms Verif.Sweep.Power.C101_sn_raw
#print axioms Verif.Sweep.Power.C101_sn_raw2
#print axioms Verif.Sweep.Power.C101_sn
#print axioms Verif.Sweep.Power.C101_sn2
#print axioms Verif.Sweep.Power.C101_sn_total
#print axioms Verif.Sweep.Power.C101_same
#print axioms Verif.Sweep.Power.C102_source
#print axioms Verif.Sweep.Power.C102_total
#print axioms Verif.Sweep.Power.C102_consistent
#print axioms Verif.Sweep.Power.C102_residual
#print axioms Verif.Sweep.Coarse.C103_radial
#print axioms Verif.Sweep.Coarse.C103_faces
#print axioms Verif.Sweep.Coarse.C103_all
#print axioms Verif.Sweep.Coarse.C103_groups
#print axioms Verif.Cmdo.Sweep.C104_sweep
#print axioms Verif.Cmdo.Sweep.C104_schedule
#print axioms Verif.Cmdo.Sweep.C104_no_data
#print axioms Verif.Cmdo.Sweep.C104_plain
#print axioms Verif.Cmdo.Sweep.C104_options_claim_false
#print axioms Verif.Cmdo.Sweep.C104_project
#print axioms Verif.Cmdo.Sweep.C104_moc_project_partial
#print axioms Verif.Cmdo.Sweep.C104_moc_single
#print axioms Verif.Cmdo.Sweep.C104_moc_claim_false
#print axioms Verif.Cmdo.Sweep.C104_claim_false
#print axioms Verif.Input.Factory.C105_sanitize
#print axioms Verif.Input.Factory.C105_quadrature
#print axioms Verif.Input.Factory.C105_validate
#print axioms Verif.Input.Factory.C105_attribute
#print axioms Verif.Input.Factory.C105_sn_options
#print axioms Verif.Input.Factory.C105_moc_options
#print axioms Verif.Input.Factory.C105_sn_factory
#print axioms Verif.Input.Factory.C105_cdd_factory
#print axioms Verif.Input.Factory.C105_sweeper
#print axioms Verif.Input.Factory.C105_solver
#print axioms Verif.Input.Factory.C105_source
#print axioms Verif.Input.Factory.C105_claim_false
#print axioms Verif.Input.Factory.C105_equation_claim_false
#print axioms Verif.Input.Factory.C105_update_claim_false
#print axioms Verif.Input.Factory.C105_update_partial
#print axioms Verif.Input.Factory.C105_doc_claim_false
#print axioms Verif.Input.Factory.C105_doc_partial
#print axioms Verif.Mesh.C106_inside
#print axioms Verif.Mesh.C106_line_x
#print axioms Verif.Mesh.C106_line_y
#print axioms Verif.Mesh.C106_corner
#print axioms Verif.Mesh.C106_table
#print axioms Verif.Mesh.C106_lower_corners
#print axioms Verif.Mesh.C106_diagonal
#print axioms Verif.Mesh.C106_outside
#print axioms Verif.Mesh.C106_claim_false
#print axioms Verif.Mesh.C106_partial
#print axioms Verif.Mesh.C106_plane_claim_false
#print axioms Verif.Mesh.C106_plane_partial
#print axioms Verif.Mesh.C106_cell
#print axioms Verif.Mesh.C106_cell_left
#print axioms Verif.Mesh.C106_cell_claim_false
#print axioms Verif.Source.C107_source
#print axioms Verif.Source.C107_external
#print axioms Verif.Source.C107_external_claim_false
#print axioms Verif.Source.C107_error
#print axioms Verif.Source.C107_error_value
#print axioms Verif.Source.C107_error_single
#print axioms Verif.Source.C107_error_claim_false
#print axioms Verif.Source.C107_error_pair
#print axioms Verif.Medium.C108_load
#print axioms Verif.Medium.C108_store
#print axioms Verif.Medium.C108_store_moc
#print axioms Verif.Medium.C108_store_sn
#print axioms Verif.Medium.C108_outer
#print axioms Verif.Medium.C108_moc
#print axioms Verif.Medium.C108_sn
#print axioms Verif.Medium.C108_ord3
#print axioms Verif.Medium.C108_ord2
#print axioms Verif.Medium.C108_dd
#print axioms Verif.Medium.C108_dd2
#print axioms Verif.Medium.C108_dd_sc
#print axioms Verif.Medium.C108_cdd2
#print axioms Verif.Medium.C108_cdd3
#print axioms Verif.Medium.C108_cdd_sc
#print axioms Verif.Medium.C108_pmb
#print axioms Verif.Medium.C108_pmb_claim_false
#print axioms Verif.Medium.C108_boundary
#print axioms Verif.Medium.C109_outer
#print axioms Verif.Medium.C109_outers
#print axioms Verif.Medium.C109_moc
#print axioms Verif.Medium.C109_store_moc
#print axioms Verif.Medium.C109_sn
#print axioms Verif.Medium.C109_sn_fix
#print axioms Verif.Medium.C110_inner
#print axioms Verif.Medium.C110_group
#print axioms Verif.Medium.C110_any
#print axioms Verif.Medium.C110_balance
#print axioms Verif.Medium.C110_closed
#print axioms Verif.Medium.C110_k
#print axioms Verif.Medium.C110_sn_inner
#print axioms Verif.Medium.C110_sn
#print axioms Verif.Medium.C110_sn_closed
#print axioms Verif.Medium.C110_sn_k
#print axioms Verif.Medium.C110_ord3
#print axioms Verif.Medium.C110_ord2
#print axioms Verif.Medium.C110_schemes
#print axioms Verif.Medium.C110_sc
#print axioms Verif.Medium.C110_store_value
#print axioms Verif.Medium.C110_reflect
#print axioms Verif.Medium.C110_reflect_moc
#print axioms Verif.Medium.C110_reflect_sn
#print axioms Verif.Medium.C111_sweep
#print axioms Verif.Medium.C111_step
#print axioms Verif.Medium.C111_scale
#print axioms Verif.Medium.C111_update_routed
#print axioms Verif.Medium.C111_update_moc
#print axioms Verif.Medium.C111_ord3
#print axioms Verif.Medium.C111_ord2
#print axioms Verif.Medium.C111_schemes
#print axioms Verif.Medium.C111_fixup
#print axioms Verif.Medium.C111_fixup_not_additive
#print axioms Verif.Medium.C111_sn_inner
#print axioms Verif.Medium.C111_sn_sweep
#print axioms Verif.Medium.C111_scale_any
#print axioms Verif.Medium.C111_sn_scale
#print axioms Verif.Medium.C111_update_sn
#print axioms Verif.Medium.C112_monotone
#print axioms Verif.Medium.C112_fission_source
#print axioms Verif.Medium.C112_fixed_monotone
#print axioms Verif.Medium.C112_bound
#print axioms Verif.Medium.C112_fixed_bound
#print axioms Verif.Medium.C112_store
#print axioms Verif.Medium.C113_contract
#print axioms Verif.Medium.C113_unique
#print axioms Verif.Medium.C113_converges
#print axioms Verif.Medium.C113_store_one
#print axioms Verif.Medium.C113_store
#print axioms Verif.H5.C114_write_vec
#print axioms Verif.H5.C114_write_array
#print axioms Verif.H5.C114_write_dims_partial
#print axioms Verif.H5.C114_write_claim_false
#print axioms Verif.H5.C114_write_misfit
#print axioms Verif.H5.C114_read_empty
#print axioms Verif.H5.C114_read_line
#print axioms Verif.H5.C114_read_grid
#print axioms Verif.H5.C114_read_claim_false
#print axioms Verif.H5.C114_read_partial
#print axioms Verif.H5.C114_read_vec
#print axioms Verif.H5.C114_read_1d
#print axioms Verif.H5.C114_roundtrip
#print axioms Verif.H5.C114_read_scalar
#print axioms Verif.H5.C114_scalar
#print axioms Verif.H5.C115_decimal
#print axioms Verif.H5.C115_fixed
#print axioms Verif.H5.C115_eigen
#print axioms Verif.H5.C115_mc
#print axioms Verif.H5.C115_flux
#print axioms Verif.H5.C115_flux_plane
#print axioms Verif.H5.C115_groups_claim_false
#print axioms Verif.H5.C115_groups_mixed
#print axioms Verif.H5.C115_groups_partial
#print axioms Verif.Medium.C116_solves
#print axioms Verif.Medium.C116_run
#print axioms Verif.Medium.C116_cmfd
#print axioms Verif.Medium.C116_exhausts
#print axioms Verif.Medium.C116_balance
#print axioms Verif.Medium.C116_converged
#print axioms Verif.Medium.C116_steps
#print axioms Verif.Medium.C116_step
#print axioms Verif.Medium.C116_append
#print axioms Verif.Medium.C116_residuals
#print axioms Verif.Medium.C116_same
#print axioms Verif.Moc.C117_ray
#print axioms Verif.Moc.C117_weights
#print axioms Verif.Moc.C117_balance
#print axioms Verif.Medium.C118_removal
#print axioms Verif.Medium.C118_source
#print axioms Verif.Medium.C118_no_axial
#print axioms Verif.Medium.C118_visitMat_nf
#print axioms Verif.Medium.C118_cmfd
#print axioms Verif.Medium.C118_residual
#print axioms Verif.Medium.C118_iff
#print axioms Verif.Medium.C118_same
#print axioms Verif.Medium.C118_converged
#print axioms Verif.Medium.C118_steps_partial
#print axioms Verif.Medium.C118_step
#print axioms Verif.Medium.C118_left
#print axioms Verif.Medium.C118_append
#print axioms Verif.Medium.C118_claim_false
#print axioms Verif.Medium.C119_compare
#print axioms Verif.Medium.C119_dominant
#print axioms Verif.Medium.C119_unique
#print axioms Verif.Medium.C119_monotone
#print axioms Verif.Medium.C119_bound
#print axioms Verif.Medium.C119_nonneg
#print axioms Verif.Mc.C120_accepts
#print axioms Verif.Mc.C120_sites_partial
#print axioms Verif.Mc.C120_made
#print axioms Verif.Mc.C120_draws
#print axioms Verif.Mc.C120_rejection
#print axioms Verif.Mc.C120_length_error
#print axioms Verif.Mc.C120_refuse_claim_false
#print axioms Verif.Mc.C120_order_differs
#print axioms Verif.Mc.C120_order_claim_false
#print axioms Verif.Mc.C120_order_same
#print axioms Verif.Mc.C120_reused
#print axioms Verif.Mc.C120_fresh_claim_false
#print axioms Verif.Mc.C121_flight
#print axioms Verif.Mc.C121_collision
#print axioms Verif.Mc.C121_spectrum
#print axioms Verif.Mc.C121_direction
#print axioms Verif.Mc.C121_directions
#print axioms Verif.Cmfd.C122_nonneg
#print axioms Verif.Cmfd.C122_unique
#print axioms Verif.Cmfd.C122_exists
#print axioms Verif.Cmfd.C122_bound
#print axioms Verif.Cmfd.C122_claim_false
#print axioms Verif.Cmfd.C122_sign_false
#print axioms Verif.Medium.C122_balance
#print axioms Verif.Medium.C122_fixed
#print axioms Verif.Rays.Options.C123_accept
#print axioms Verif.Rays.Options.C123_read
#print axioms Verif.Rays.Options.C123_modules
#print axioms Verif.Rays.Options.C123_tables
#print axioms Verif.Rays.Options.C123_warn
#print axioms Verif.Rays.Options.C123_silent
#print axioms Verif.Rays.Options.C123_claim_false
#print axioms Verif.Rays.Options.C123_lost
#print axioms Verif.Moc.Tables.C124_regions
#print axioms Verif.Moc.Tables.C124_volumes
#print axioms Verif.Moc.Tables.C124_offsets
#print axioms Verif.Moc.Tables.C124_sizes
#print axioms Verif.Moc.Tables.C124_update
#print axioms Verif.Moc.Tables.C124_update_angle
#print axioms Verif.Cmfd.C125_everywhere
#print axioms Verif.Medium.C125_solution
#print axioms Verif.Medium.C125_converges
#print axioms Verif.Medium.C125_positive
#print axioms Verif.Medium.C125_stops
#print axioms Verif.Medium.C125_run
#print axioms Verif.Timers.C126_time
#print axioms Verif.Timers.C126_toc
#print axioms Verif.Timers.C126_toc_iff
#print axioms Verif.Timers.C126_toc_claim_false
#print axioms Verif.Timers.C126_new
#print axioms Verif.Timers.C126_new_claim_false
#print axioms Verif.Timers.C126_run
#print axioms Verif.Timers.C126_again
#print axioms Verif.Timers.C126_again_claim_false
#print axioms Verif.Timers.C126_again_release
#print axioms Verif.Timers.C126_root
#print axioms Verif.Timers.C126_parts_claim_false
#print axioms Verif.Log.C127_both
#print axioms Verif.Log.C127_silent
#print axioms Verif.Log.C127_lost
#print axioms Verif.Log.C127_screen_claim_false
#print axioms Verif.Log.C127_count
#print axioms Verif.Log.C127_summary
#print axioms Verif.Log.C127_list_claim_false
#print axioms Verif.Log.C127_none
#print axioms Verif.Mc.C128_monotone
#print axioms Verif.Mc.C128_group
#print axioms Verif.Mc.C128_last
#print axioms Verif.Mc.C128_reaction
#print axioms Verif.Mc.C128_chi
#print axioms Verif.Mc.C128_exact
#print axioms Verif.Mc.C128_uo2
#print axioms Verif.Mc.C128_claim_false
#print axioms Verif.Mc.C128_capture_claim_false
#print axioms Verif.Mc.C128_chi_claim_false
#print axioms Verif.Moc.C129_boundary
#print axioms Verif.Moc.C129_exact
#print axioms Verif.Moc.C129_index
#print axioms Verif.Moc.C129_bounds_claim_false
#print axioms Verif.Moc.C129_range
#print axioms Verif.Moc.C129_sweep
#print axioms Verif.Moc.C129_max_claim_false
#print axioms Verif.Moc.C129_flux_claim_false
#print axioms Verif.Mc.C130_range
#print axioms Verif.Mc.C130_polar
#print axioms Verif.Mc.C130_number
#print axioms Verif.Mc.C130_below
#print axioms Verif.Mc.C130_int
#print axioms Verif.Mc.C130_open_claim_false
#print axioms Verif.Mc.C130_upper_claim_false
#print axioms Verif.Mc.C130_mean
#print axioms Verif.Mc.C130_deviation
#print axioms Verif.Mc.C130_mean_claim_false
#print axioms Verif.Mc.C130_deviation_claim_false
#print axioms Verif.Mc.C130_exact
#print axioms Verif.Par.C131_moc
#print axioms Verif.Par.C131_moc_agree
#print axioms Verif.Par.C131_moc_claim_false
#print axioms Verif.Par.C131_sn
#print axioms Verif.Par.C131_sn_switch
#print axioms Verif.Par.C131_mc
#print axioms Verif.Par.C131_rays
#print axioms Verif.Draw.C132_drawn
#print axioms Verif.Draw.C132_rect
#print axioms Verif.Draw.C132_sector
#print axioms Verif.Draw.C132_cyl
#print axioms Verif.Draw.C132_cyl_claim_false
#print axioms Verif.Draw.C132_inside
#print axioms Verif.Draw.C132_output
#print axioms Verif.Draw.C132_claim_false
#print axioms Verif.Draw.C132_pins_partial
#print axioms Verif.SurfFlux.C133_currents
#print axioms Verif.SurfFlux.C133_moc
#print axioms Verif.SurfFlux.C133_corr_partial
#print axioms Verif.SurfFlux.C133_moc_claim_false
#print axioms Verif.SurfFlux.C133_sn_partial
#print axioms Verif.SurfFlux.C133_sn_claim_false
#print axioms Verif.SurfFlux.C133_flat_partial
#print axioms Verif.SurfFlux.C133_flat_claim_false
#print axioms Verif.SurfFlux.C133_first
#print axioms Verif.SurfFlux.C133_first_partial
#print axioms Verif.SurfFlux.C133_incoming_claim_false
#print axioms Verif.Mesh.Machine.C134_counts
#print axioms Verif.Mesh.Machine.C134_cell
#print axioms Verif.Mesh.Machine.C134_table
#print axioms Verif.Mesh.Machine.C134_index
#print axioms Verif.Mesh.Machine.C134_normal
#print axioms Verif.Mesh.Machine.C134_neighbours
#print axioms Verif.Mesh.Machine.C134_claim_false
#print axioms Verif.Mesh.Machine.C134_store
#print axioms Verif.Mesh.Machine.C134_face
#print axioms Verif.Mesh.Machine.C134_store_claim_false
#print axioms Verif.Errors.C135_grows
#print axioms Verif.Errors.C135_report
#print axioms Verif.Errors.C135_zero
#print axioms Verif.Errors.C135_terminated
#print axioms Verif.Errors.C135_fail
#print axioms Verif.Errors.C135_chain
#print axioms Verif.Errors.C135_instead
#print axioms Verif.Errors.C135_h5
#print axioms Verif.Errors.C135_quad
#print axioms Verif.Errors.C135_output
#print axioms Verif.Errors.C135_lattice
#print axioms Verif.Errors.C135_core
#print axioms Verif.Errors.C135_material
#print axioms Verif.Errors.C135_mc
#print axioms Verif.Errors.C135_update
#print axioms Verif.Errors.C135_claim_false
#print axioms Verif.Errors.C135_mocc_claim_false
#print axioms Verif.Errors.C135_cause_claim_false
#print axioms Verif.Medium.C136_sn
#print axioms Verif.Medium.C136_outer
#print axioms Verif.Medium.C136_last
#print axioms Verif.Medium.C136_sn_subplanes
#print axioms Verif.Medium.C136_moc_subplanes
#print axioms Verif.Medium.C136_moc
#print axioms Verif.Medium.C136_claim_false
#print axioms Verif.Medium.C136_order_claim_false
#print axioms Verif.Moc.C137_file
#print axioms Verif.Moc.C137_head
#print axioms Verif.Moc.C137_needed
#print axioms Verif.Mat.C138_row
#print axioms Verif.Mat.C138_scat
#print axioms Verif.Mat.C138_bounds
#print axioms Verif.Mat.C138_agree
#print axioms Verif.Mat.C138_first
#print axioms Verif.Mat.C138_claim_false
#print axioms Verif.Cmfd.C139_mesh
#print axioms Verif.Cmfd.C139_scaled
#print axioms Verif.Cmfd.C139_numbers
#print axioms Verif.Cmfd.C139_partial
#print axioms Verif.Cmfd.C139_claim_false
#print axioms Verif.Cmfd.C139_plane
#print axioms Verif.Cmfd.C139_plane_claim_false
#print axioms Verif.Mc.C140_run
#print axioms Verif.Mc.C140_threads
#print axioms Verif.Mc.C140_exists
#print axioms Verif.Mc.C140_claim_false
#print axioms Verif.Sn.C141_exact
#print axioms Verif.Sn.C141_exact_sc
#print axioms Verif.Sn.C141_average
#print axioms Verif.Sn.C141_error_dd
#print axioms Verif.Sn.C141_error_cdd
#print axioms Verif.Sn.C141_balance
#print axioms Verif.Sn.C141_rho
#print axioms Verif.Sn.C141_rho_range
#print axioms Verif.Sn.C141_sc_partial
#print axioms Verif.Sn.C141_thin
#print axioms Verif.Sn.C141_void
#print axioms Verif.Sn.C141_sc_vacuum
#print axioms Verif.Sn.C141_sc_claim_false
#print axioms Verif.Sn.C141_thin_exact
#print axioms Verif.Source.C142_exact
#print axioms Verif.Source.C142_nonneg
#print axioms Verif.Source.C142_steps
#print axioms Verif.Source.C142_source
#print axioms Verif.Source.C142_self_scatter
#print axioms Verif.Source.C142_fission_source
#print axioms Verif.Source.C142_total
#print axioms Verif.Source.C142_k
#print axioms Verif.Source.C142_drift
#print axioms Verif.Source.C142_still_claim_false
#print axioms Verif.Source.C142_still_partial
#print axioms Verif.Source.C142_underflow
#print axioms Verif.Source.C143_count
#print axioms Verif.Source.C143_sign
#print axioms Verif.Source.C143_error
#print axioms Verif.Source.C143_iteration
#print axioms Verif.Source.C143_converged
#print axioms Verif.Source.C143_number
#print axioms Verif.Source.C143_no_fission
#print axioms Verif.Source.C143_infinite
#print axioms Verif.Source.C143_mode
#print axioms Verif.Source.C143_pair_claim_false
#print axioms Verif.Cmdo.C144_bounds
#print axioms Verif.Cmdo.C144_claim_false
#print axioms Verif.Cmdo.C144_once
#print axioms Verif.Cmdo.C144_match
#print axioms Verif.Cmdo.C144_preserve
#print axioms Verif.Cmdo.C144_uncomputed
#print axioms Verif.Cmdo.C145_kernel
#print axioms Verif.Cmdo.C145_direction_partial
#print axioms Verif.Cmdo.C145_flux_partial
#print axioms Verif.Cmdo.C145_claim_false
#print axioms Verif.Medium.C146_residual
#print axioms Verif.Medium.C146_outer_partial
#print axioms Verif.Medium.C146_outers_partial
#print axioms Verif.Medium.C146_claim_false
#print axioms Verif.Cmdo.C147_throws
#print axioms Verif.Cmdo.C147_zero
#print axioms Verif.Cmdo.C147_plain
#print axioms Verif.Cmdo.C147_order
#print axioms Verif.Cmdo.C147_factors
#print axioms Verif.Cmdo.C147_residuals
#print axioms Verif.Cmdo.C147_beta_partial
#print axioms Verif.Cmdo.C147_beta_ratio
#print axioms Verif.Cmdo.C147_alpha
#print axioms Verif.Cmdo.C147_plane_source
#print axioms Verif.Cmdo.C147_claim_false
#print axioms Verif.Mc.C148_run
#print axioms Verif.Mc.C148_conserved
#print axioms Verif.Mc.C148_upper
#print axioms Verif.Mc.C148_ends
#print axioms Verif.Mc.C148_lower
#print axioms Verif.Mc.C148_limit
#print axioms Verif.Mc.C148_drift
#print axioms Verif.Mc.C148_worth
#print axioms Verif.Mc.C148_dual
#print axioms Verif.Mc.C148_infinite
#print axioms Verif.Mc.C148_k
#print axioms Verif.Mc.C148_flux
#print axioms Verif.XS.Share.C149_updated
#print axioms Verif.XS.Share.C149_still
#print axioms Verif.XS.Share.C149_tables
#print axioms Verif.XS.Share.C149_matrices
#print axioms Verif.XS.Share.C149_removal_iff
#print axioms Verif.XS.Share.C149_sweep
#print axioms Verif.XS.Share.C149_group
#print axioms Verif.XS.Share.C149_moc
#print axioms Verif.XS.Share.C149_source
#print axioms Verif.XS.Share.C149_converged
#print axioms Verif.XS.Share.C149_unweighted
#print axioms Verif.XS.Share.C149_removal_claim_false
#print axioms Verif.XS.Share.C149_expand_claim_false
#print axioms Verif.XS.Share.C149_source_claim_false
#print axioms Verif.XS.C150_nonneg
#print axioms Verif.XS.C150_exact
#print axioms Verif.XS.C150_removal
#print axioms Verif.XS.C150_zero_flux
#print axioms Verif.XS.C150_error
#print axioms Verif.XS.C150_error_scatter
#print axioms Verif.XS.C150_error_spectrum
#print axioms Verif.XS.C150_one_material_claim_false
#print axioms Verif.XS.C150_removal_claim_false
#print axioms Verif.XS.C150_finite_claim_false
#print axioms Verif.XS.C150_between
#print axioms Verif.XS.C150_between_scatter
#print axioms Verif.XS.C150_absorption
#print axioms Verif.XS.C150_between_spectrum
#print axioms Verif.XS.C150_one_material
#print axioms Verif.XS.C150_shape
#print axioms Verif.XS.C150_between_area
#print axioms Verif.Mc.C151_draws
#print axioms Verif.Mc.C151_mean
#print axioms Verif.Mc.C151_site
#print axioms Verif.Mc.C151_selection
#print axioms Verif.Mc.C151_copies
#print axioms Verif.Mc.C151_cycle_draws
#print axioms Verif.Mc.C151_cycle
#print axioms Verif.Mc.C151_hits
#print axioms Verif.Mc.C151_hits_claim_false
#print axioms Verif.Cmfd.C152_dtilde_nonneg
#print axioms Verif.Cmfd.C152_stilde_fraction
#print axioms Verif.Cmfd.C152_reflective
#print axioms Verif.Cmfd.C152_exchange
#print axioms Verif.Cmfd.C152_symmetric
#print axioms Verif.Cmfd.C152_signs
#print axioms Verif.Cmfd.C152_diagonal
#print axioms Verif.Cmfd.C152_current
#print axioms Verif.Cmfd.C152_current_claim_false
#print axioms Verif.Cmfd.C152_zero_flux
#print axioms Verif.Cmfd.C152_surface_flux
#print axioms Verif.Cmfd.C152_coupling
#print axioms Verif.Cmfd.C152_partial
#print axioms Verif.Cmfd.C152_exact
#print axioms Verif.Cmfd.C152_exact_matrix
#print axioms Verif.Core.C153_corner
#print axioms Verif.Core.C153_sorted
#print axioms Verif.Core.C153_exact
#print axioms Verif.Core.C153_faces
#print axioms Verif.Core.C153_lattice_faces
#print axioms Verif.Core.C153_on_face
#print axioms Verif.Core.C153_on_plane
#print axioms Verif.Core.C153_location
#print axioms Verif.Core.C153_fp_equiv
#print axioms Verif.Core.C153_gap
#print axioms Verif.Core.C153_outside
#print axioms Verif.Core.C153_claim_false
#print axioms Verif.Core.C153_box_claim_false
#print axioms Verif.Core.C153_without_rounding
#print axioms Verif.Medium.C154_error
#print axioms Verif.Medium.C154_constant
#print axioms Verif.Medium.C154_same
#print axioms Verif.Medium.C154_unique
#print axioms Verif.Medium.C154_converges
#print axioms Verif.Medium.C154_claim_false
#print axioms Verif.Medium.C155_sweep
#print axioms Verif.Medium.C155_reciprocity
#print axioms Verif.Medium.C155_fixed
#print axioms Verif.Medium.C155_overlap
#print axioms Verif.Medium.C155_overlap_pos
#print axioms Verif.Medium.C155_k
#print axioms Verif.Medium.C155_boundary
#print axioms Verif.Sn.C156_ordinates
#print axioms Verif.Sn.C156_ordinates_2d
#print axioms Verif.Medium.C156_ord3
#print axioms Verif.Medium.C156_ord2
#print axioms Verif.Medium.C156_diamond
#print axioms Verif.Medium.C156_half
#print axioms Verif.Medium.C156_sc
#print axioms Verif.Medium.C156_sweep
#print axioms Verif.Medium.C156_reciprocity
#print axioms Verif.Medium.C156_fixed
#print axioms Verif.Medium.C156_k
#print axioms Verif.Medium.C156_boundary3
#print axioms Verif.Medium.C156_boundary2
#print axioms Verif.Medium.C156_corrected_claim_false
#print axioms Verif.Medium.C156_fixup_claim_false
#print axioms Verif.Medium.C157_ord3
#print axioms Verif.Medium.C157_ord2
#print axioms Verif.Medium.C157_sweep
#print axioms Verif.Medium.C157_groups
#print axioms Verif.Medium.C157_k
#print axioms Verif.Medium.C157_fixed
#print axioms Verif.Medium.C157_boundary3
#print axioms Verif.Medium.C157_boundary2
#print axioms Verif.Medium.C157_local3
#print axioms Verif.Medium.C157_local2
#print axioms Verif.Medium.C157_half_sweep
#print axioms Verif.Medium.C157_half_groups
#print axioms Verif.Medium.C157_half_k
#print axioms Verif.Medium.C157_half_fixed
#print axioms Verif.Medium.C158_ord3
#print axioms Verif.Medium.C158_ord2
#print axioms Verif.Medium.C158_sweep
#print axioms Verif.Medium.C158_production
#print axioms Verif.Medium.C158_group
#print axioms Verif.Medium.C158_groups
#print axioms Verif.Medium.C158_outer
#print axioms Verif.Medium.C158_outers
#print axioms Verif.Medium.C158_fixed
#print axioms Verif.Medium.C158_symmetric
#print axioms Verif.Medium.C158_boundary3
#print axioms Verif.Medium.C158_boundary2
#print axioms Verif.Medium.C158_not_gauss_seidel
#print axioms Verif.Medium.C159_plane
#print axioms Verif.Medium.C159_sweep
#print axioms Verif.Medium.C159_group
#print axioms Verif.Medium.C159_groups
#print axioms Verif.Medium.C159_outer
#print axioms Verif.Medium.C159_outers
#print axioms Verif.Medium.C159_fixed
#print axioms Verif.Medium.C159_symmetric
#print axioms Verif.Medium.C159_boundary
#print axioms Verif.Medium.C159_not_gauss_seidel
#print axioms Verif.Medium.C160_moc_sweep
#print axioms Verif.Medium.C160_moc_group
#print axioms Verif.Medium.C160_moc_groups
#print axioms Verif.Medium.C160_moc
#print axioms Verif.Medium.C160_moc_fixed
#print axioms Verif.Medium.C160_schemes
#print axioms Verif.Medium.C160_ord3
#print axioms Verif.Medium.C160_ord2
#print axioms Verif.Medium.C160_sn_sweep
#print axioms Verif.Medium.C160_sn_group
#print axioms Verif.Medium.C160_sn_groups
#print axioms Verif.Medium.C160_sn
#print axioms Verif.Medium.C160_sn_fixed
#print axioms Verif.Medium.C160_claim_false
#print axioms Verif.Medium.C161_sweep
#print axioms Verif.Medium.C161_group
#print axioms Verif.Medium.C161_groups
#print axioms Verif.Medium.C161_fixed
#print axioms Verif.Medium.C161_given_k
#print axioms Verif.Medium.C161_unlike
#print axioms Verif.Medium.C161_production
#print axioms Verif.Medium.C161_outer
#print axioms Verif.Medium.C161_outers
#print axioms Verif.Medium.C161_stacked
#print axioms Verif.Medium.C162_tr
#print axioms Verif.Medium.C162_self
#print axioms Verif.Medium.C162_in
#print axioms Verif.Medium.C162_fission_source
#print axioms Verif.Medium.C162_fission
#print axioms Verif.Medium.C162_production
#print axioms Verif.Medium.C162_groups
#print axioms Verif.Medium.C162_outers
#print axioms Verif.Medium.C162_steps
#print axioms Verif.Medium.C162_moc_group
#print axioms Verif.Medium.C162_sn_group
#print axioms Verif.Medium.C162_moc
#print axioms Verif.Medium.C162_sn
#print axioms Verif.Medium.C162_fixed
#print axioms Verif.Medium.C162_order
#print axioms Verif.Medium.C162_split
#print axioms Verif.Medium.C163_source
#print axioms Verif.Medium.C163_production
#print axioms Verif.Medium.C163_outers
#print axioms Verif.Medium.C163_moc
#print axioms Verif.Medium.C163_sn
#print axioms Verif.Medium.C163_critical
#print axioms Verif.Medium.C164_source
#print axioms Verif.Medium.C164_store
#print axioms Verif.Medium.C164_groups
#print axioms Verif.Medium.C164_cut
#print axioms Verif.Medium.C164_moc
#print axioms Verif.Medium.C164_sn_groups
#print axioms Verif.Medium.C164_sn_cut
#print axioms Verif.Medium.C164_sn
#print axioms Verif.Medium.C164_boundary
#print axioms Verif.Medium.C165_source
#print axioms Verif.Medium.C165_production
#print axioms Verif.Medium.C165_outers
#print axioms Verif.Medium.C165_moc
#print axioms Verif.Medium.C165_sn
#print axioms Verif.Medium.C165_libraries
