{"claims": [
 {"property": "C01", "status": "partial", "theorems": ["Gyoto.SmartPtr.refcount_history", "Gyoto.SmartPtr.no_use_after_free_partial", "Gyoto.SmartPtr.no_use_after_free_variables", "Gyoto.SmartPtr.assign_from_own_member_is_ub", "Gyoto.SmartPtr.assign_raw_of_own_member_is_ub", "Gyoto.SmartPtr.pointee_assignment_breaks_counting"], "note": "Counting proved for all histories; use-after-free freedom needs a pinning condition, refuted without it."},
 {"property": "C02", "status": "proved", "theorems": ["Gyoto.Hooks.notification_reaches_registered", "Gyoto.Hooks.calls_count", "Gyoto.Hooks.destroy_frees_all", "Gyoto.Hooks.self_removal_during_notification_is_ub"], "note": "All histories of hook/unhook/tell/destroy. Finding: a listener which unhooks itself while being told makes the loop read a freed list cell."},
 {"property": "C03", "status": "partial", "theorems": ["Gyoto.Wline.storage_refines", "Gyoto.Wline.hit_backward_partial", "Gyoto.Wline.hit_forward_overflows", "Gyoto.Wline.hit_backward_underflows"], "note": "Proved for xFill/setInitCoord/reset/xExpand histories. Photon::hit stores safely only when the first index is not 0 (backward); refuted otherwise and forward."},
 {"property": "C04", "status": "proved", "theorems": ["Gyoto.Wline.date_lookup", "Gyoto.Wline.date_lookup_no_ub", "Gyoto.Wline.bracket_unique", "Gyoto.Wline.best_bracket", "Gyoto.Wline.interpolation_at_date"], "note": "Search proved for any trajectory, requests and integrator; interpolation for the photon branch over an ordered field."},
 {"property": "C05", "status": "proved", "theorems": ["Gyoto.PhiTheta.normalised_same_point", "Gyoto.PhiTheta.reflected_iff", "Gyoto.PhiTheta.normalised_id", "Gyoto.PhiTheta.vec_is_derivative", "Gyoto.PhiTheta.transported_vector_changes", "Gyoto.PhiTheta.three_plus_one_velocity_changes"], "note": "Proved over the reals for the 8-vector. Findings: transported basis vectors (elements 8-15) and the 7-component 3+1 vector are not transformed consistently."},
 {"property": "C06", "status": "proved", "theorems": ["Gyoto.Coords.range_visits", "Gyoto.Coords.grid_visits", "Gyoto.Coords.lists_visited", "Gyoto.Coords.repeated_visited", "Gyoto.Coords.empty_range_size", "Gyoto.Coords.range_at_limit_wraps"], "note": "Ranges whose last step stays below 2^64; findings: empty range advertises a wrong size, ranges at the limit of size_t wrap."},
 {"property": "C07", "status": "proved", "theorems": ["Gyoto.Threads.no_race", "Gyoto.Threads.image_any_schedule", "Gyoto.Threads.same_as_single_thread", "Gyoto.Threads.all_threads_finish", "Gyoto.Threads.pixelCell_injective", "Gyoto.Threads.good_grid", "Gyoto.Threads.explicit_positions_overread"], "note": "All schedules and thread counts, given that a ray's result does not depend on the photon's past and that the set of positions can be dereferenced at its end (true of grids of ranges; refuted for explicit lists)."},
 {"property": "C08", "status": "proved", "theorems": ["Gyoto.Mpi.no_ub", "Gyoto.Mpi.manager_result", "Gyoto.Mpi.no_deadlock", "Gyoto.Mpi.bounded_executions", "Gyoto.Mpi.same_as_threads"], "note": "All message orders, at least one worker."},
 {"property": "C09", "status": "partial", "theorems": ["Gyoto.Quant.message_in_bounds", "Gyoto.Quant.message_disjoint_iff", "Gyoto.Quant.message_no_overlap_partial", "Gyoto.Quant.message_overlap"], "note": "False when two spectral quantities or more are requested with two channels or more: blocks are placed one slot apart (message_overlap). message_disjoint_iff gives the exact domain; all slots are always inside the message."},
 {"property": "C10", "status": "proved", "theorems": ["Gyoto.Quant.quantities_round_trip", "Gyoto.Quant.effective_round_trip", "Gyoto.Quant.parse_correct", "Gyoto.Quant.unit_split"], "note": "For every word with known bits and every text."},
 {"property": "C100", "status": "partial", "theorems": ["Gyoto.HitQ.intensity_observed", "Gyoto.HitQ.spectrum_observed", "Gyoto.HitQ.stokes_observed", "Gyoto.HitQ.bin_observed_partial", "Gyoto.HitQ.bin_unabsorbed_wrong", "Gyoto.HitQ.null_spectrum_wrong", "Gyoto.HitQ.served_iff", "Gyoto.HitQ.no_spectrometer", "Gyoto.HitQ.which_hit", "Gyoto.HitQ.opaque_stops_iff", "Gyoto.HitQ.opaque_hides_partial", "Gyoto.HitQ.hidden_redshift_wrong", "Gyoto.HitQ.opaque_stops_bare", "Gyoto.HitQ.reset_fresh", "Gyoto.HitQ.layer_length", "Gyoto.HitQ.transmission_updated"], "note": "Proved: intensity, spectrum and Stokes parameters are the formal solution of the transfer equation over the layers met, whichever other quantities are requested. Refuted: with parallel transport the binned spectrum ignores absorption when the spectrum is requested too; a Stokes parameter requested without spectrum and without parallel transport writes through a null pointer; in a scene with a spectrometer, when no spectral quantity is requested, rays go through opaque objects and the redshift and date are those of the last hidden surface. Exact conditions are proved (served_iff, opaque_stops_iff). Assumed: converters are proportional; transmission and radiativeQ agree (proved in C27 when one is the default)."},
 {"property": "C101", "status": "partial", "theorems": ["Gyoto.Plunge.profile_circular", "Gyoto.Plunge.profile_plunge", "Gyoto.Plunge.profile_radial", "Gyoto.Plunge.profile_mixed", "Gyoto.Plunge.grid_same", "Gyoto.Plunge.stoch_radial", "Gyoto.Plunge.stoch_kinds", "Gyoto.Plunge.rz_outside", "Gyoto.Plunge.rz_mixed", "Gyoto.Plunge.negative_spin", "Gyoto.Plunge.negative_spin_wrong", "Gyoto.Plunge.grid_negative_wrong"], "note": "Proved for spins from 0 to below 1 and, with the metric of Rezzolla and Zhidenko, outside the last stable orbit. False for negative spins: the last stable orbit used is the one of prograde orbits, the orbits used are retrograde; ThinDiskProfile throws (even for radial fall) and the grids return a vector that is not a unit vector. Inside the last stable orbit of Rezzolla and Zhidenko and the branch of Konoplya, Rezzolla and Zhidenko are not covered."},
 {"property": "C102", "status": "partial", "theorems": ["Gyoto.ProfileDisk.spectrum_total", "Gyoto.ProfileDisk.user4_total", "Gyoto.ProfileDisk.redshift_last", "Gyoto.ProfileDisk.impact_last", "Gyoto.ProfileDisk.never_absorbs", "Gyoto.ProfileDisk.refused", "Gyoto.ProfileDisk.null_data_wrong", "Gyoto.ProfileDisk.impact_refused_wrong", "Gyoto.ProfileDisk.served", "Gyoto.ProfileDisk.redshift_lost_wrong", "Gyoto.ProfileDisk.spectrum_lost_wrong", "Gyoto.ProfileDisk.emission_simple", "Gyoto.ProfileDisk.emission_angle", "Gyoto.ProfileDisk.param_kept", "Gyoto.ProfileDisk.param_refused", "Gyoto.ProfileDisk.kind_names"], "note": "Proved for the first requested quantity in the order user4, spectrum, redshift (, coordinates). False otherwise: a quantity requested with another one that comes before is not filled; ThinDiskProfile dereferences a null set of quantities, which Complex::Impact passes; it throws when only the coordinates are requested. These disks never absorb, even when optically thick."},
 {"property": "C103", "status": "partial", "theorems": ["Gyoto.Stochastic.idx_lt", "Gyoto.Stochastic.idx_bij", "Gyoto.Stochastic.solution_wave", "Gyoto.Stochastic.solution_periodic", "Gyoto.Stochastic.modal_field", "Gyoto.Stochastic.modal_edge", "Gyoto.Stochastic.emission_positive_wrong", "Gyoto.Stochastic.never_drawn", "Gyoto.Stochastic.edge_wrong", "Gyoto.Stochastic.names_partial", "Gyoto.Stochastic.static_wrong", "Gyoto.Stochastic.static_throws"], "note": "The field is a wave whatever its tables, and vanishes on the edge once modalQuantities was called. But the library never calls modalQuantities: through its properties the object emits 64 everywhere (0 with AdvectionDiffusion). The emission can be negative. The motion Static cannot be set: the setter throws after having set it."},
 {"property": "C104", "status": "partial", "theorems": ["Gyoto.Moving.free_velocity", "Gyoto.Moving.free_path", "Gyoto.Moving.free_unit_partial", "Gyoto.Moving.free_unit_wrong", "Gyoto.Moving.free_getter_partial", "Gyoto.Moving.free_getter_wrong", "Gyoto.Moving.free_refused_wrong", "Gyoto.Moving.free_initCoord_wrong", "Gyoto.Moving.free_unset", "Gyoto.Moving.free_derivatives_partial", "Gyoto.Moving.free_derivatives_wrong", "Gyoto.Moving.free_cartesian_wrong"], "note": "Path and tangent velocity proved. Refuted: the star that spirals outward ends up faster than light (zero four-velocity), the velocity read back is multiplied by u^t, a refused velocity is stored, no velocity may be set after initCoord, the derivatives are zero on a circle, Cartesian coordinates are read as spherical."},
 {"property": "C105", "status": "partial", "theorems": ["Gyoto.Moving.blob_equatorial", "Gyoto.Moving.blob_conical", "Gyoto.Moving.blob_cylindrical", "Gyoto.Moving.blob_start_partial", "Gyoto.Moving.blob_start_wrong", "Gyoto.Moving.blob_fast_wrong", "Gyoto.Moving.blob_derivatives_wrong", "Gyoto.Moving.blob_read_partial", "Gyoto.Moving.blob_read_wrong"], "note": "Paths and tangent velocities proved for the three motions. Refuted: faster than light is accepted and gives a zero four-velocity, the kind of motion may change after the position was checked, derivatives read an array never written, a blob off the equator cannot be read back."},
 {"property": "C106", "status": "partial", "theorems": ["Gyoto.Moving.plasmoid_helical_partial", "Gyoto.Moving.plasmoid_helical_wrong", "Gyoto.Moving.plasmoid_equatorial_partial", "Gyoto.Moving.plasmoid_unset_wrong", "Gyoto.Moving.plasmoid_radius", "Gyoto.Moving.plasmoid_radius_wrong", "Gyoto.Moving.plasmoid_set_radius_wrong", "Gyoto.Moving.plasmoid_radiusMax"], "note": "Circular motion follows the path; in the helical one the velocity follows the path only at the initial radius. Refuted: no plasmoid set through properties only can be drawn; the radius exceeds RadiusMax; the radius set is ignored."},
 {"property": "C107", "status": "partial", "theorems": ["Gyoto.Moving.inflate_radius", "Gyoto.Moving.inflate_fresh_wrong", "Gyoto.Moving.inflate_jump_wrong", "Gyoto.Moving.inflate_emission", "Gyoto.Moving.inflate_emission_before", "Gyoto.Moving.inflate_impact", "Gyoto.Moving.inflate_stale_wrong"], "note": "Proved when the end is after the start. Refuted: a fresh star has radius DBL_MAX from the date 0 on; with exchanged dates the radius jumps; within a step the radius of the first end is used."},
 {"property": "C108", "status": "partial", "theorems": ["Gyoto.Synch.black_body_in_step", "Gyoto.Synch.emission_positive", "Gyoto.Synch.polarised_results", "Gyoto.Synch.same_intensity", "Gyoto.Synch.kirchhoff", "Gyoto.Synch.averaged_is_mean", "Gyoto.Synch.averaged_no_circular", "Gyoto.Synch.cold_is_dark", "Gyoto.Synch.low_frequency", "Gyoto.Synch.circular_wrong", "Gyoto.Synch.angle_lost_wrong", "Gyoto.Synch.increment_partial", "Gyoto.Synch.increment_wrong", "Gyoto.Synch.along_field_wrong"], "note": "Kirchhoff's law, positivity, linear polarisation, agreement of both radiativeQ and the means over the directions are proved. Refuted: below some frequency there is more circular polarisation than intensity; averaging leaves its last angle in the object; operator()(nu, op, ds) vanishes for deep slabs; along the field nothing is defined."},
 {"property": "C109", "status": "partial", "theorems": ["Gyoto.Synch.pl_positive", "Gyoto.Synch.pl_slopes", "Gyoto.Synch.pl_source", "Gyoto.Synch.pl_field", "Gyoto.Synch.pl_results", "Gyoto.Synch.pl_averaged", "Gyoto.Synch.pl_absorption", "Gyoto.Synch.above_max_refused", "Gyoto.Synch.below_min_wrong", "Gyoto.Synch.flat_index_wrong", "Gyoto.Synch.high_energy_wrong", "Gyoto.Synch.default_index_wrong", "Gyoto.Synch.pl_circular_wrong"], "note": "Slopes, positivity, polarisation, agreement and means are proved. Refuted: frequencies below gamma_min^2 nu0 are accepted; the absorption of Q is not defined for 1 < p < 43/42.5; gamma_min > 100 is refused only with polarisation; the index of a new object gives a negative emission; there can be more circular polarisation than intensity."},
 {"property": "C11", "status": "proved", "theorems": ["Gyoto.Quant.move_add", "Gyoto.Quant.word_spec", "Gyoto.Quant.init_spec", "Gyoto.Quant.init_cell"], "note": ""},
 {"property": "C110", "status": "partial", "theorems": ["Gyoto.Synch.brems_in_step", "Gyoto.Synch.brems_kirchhoff", "Gyoto.Synch.brems_square", "Gyoto.Synch.gaunt_wrong", "Gyoto.Synch.relativistic_wrong"], "note": "Positivity, Kirchhoff's law and the square of the density are proved. Refuted: at h nu = k T the emission more than doubles at once (the two forms of the Gaunt factor do not meet), and where k T = m c^2 the radiated energy drops."},
 {"property": "C111", "status": "partial", "theorems": ["Gyoto.SphAcc.slab_transfer", "Gyoto.SphAcc.transfer_unique", "Gyoto.SphAcc.slab_split", "Gyoto.SphAcc.slab_bounds", "Gyoto.SphAcc.slab_continuous", "Gyoto.SphAcc.slab_source", "Gyoto.SphAcc.slab_bright_wrong", "Gyoto.SphAcc.slab_amplifies_wrong"], "note": "Proved for nonnegative coefficients and an emission below 2^53: the test x==x+1. takes larger intensities for infinite (slab_bright_wrong). Negative absorption is accepted and makes the transmission exceed one (slab_amplifies_wrong)."},
 {"property": "C112", "status": "partial", "theorems": ["Gyoto.SphAcc.kerr_velocity", "Gyoto.SphAcc.kerr_observer", "Gyoto.SphAcc.kerr_falls", "Gyoto.SphAcc.static_falls", "Gyoto.SphAcc.cartesian_wrong", "Gyoto.SphAcc.history", "Gyoto.SphAcc.power_laws", "Gyoto.SphAcc.slope_wrong", "Gyoto.SphAcc.magnetization_wrong", "Gyoto.SphAcc.inside_iff", "Gyoto.SphAcc.self_absorbed", "Gyoto.SphAcc.not_absorbed", "Gyoto.SphAcc.cold_flow", "Gyoto.SphAcc.unmagnetised_wrong", "Gyoto.SphAcc.density_given"], "note": "In Cartesian coordinates the velocity is not radial yet accepted far away (cartesian_wrong); an unmagnetised hot gas gives NaN (unmagnetised_wrong); the header's temperature slope and magnetisation differ from the code (slope_wrong, magnetization_wrong)."},
 {"property": "C113", "status": "partial", "theorems": ["Gyoto.StarTrace.dates_ordered", "Gyoto.StarTrace.thrice", "Gyoto.StarTrace.twice_iff", "Gyoto.StarTrace.written_wrong", "Gyoto.StarTrace.cache_partial", "Gyoto.StarTrace.stale_wrong", "Gyoto.StarTrace.inside_iff", "Gyoto.StarTrace.covers_partial", "Gyoto.StarTrace.gap_wrong"], "note": "The dates of a file with a positive TMin are not read back (written_wrong). The cached places are right unless a metric changes its kind of coordinates and tells (cache_partial, stale_wrong). The trace covers the orbit up to the distance between stored events (covers_partial, gap_wrong)."},
 {"property": "C114", "status": "partial", "theorems": ["Gyoto.Synch.kappa_temperature", "Gyoto.Synch.kappa_positive", "Gyoto.Synch.kappa_emission_laws", "Gyoto.Synch.kappa_absorption_laws", "Gyoto.Synch.kappa_field", "Gyoto.Synch.kappa_linear", "Gyoto.Synch.kappa_beam_partial", "Gyoto.Synch.kappa_circular_wrong", "Gyoto.Synch.kappa_results", "Gyoto.Synch.kappa_averaged", "Gyoto.Synch.kappa_accepts", "Gyoto.Synch.near_index_wrong", "Gyoto.Synch.no_index_wrong", "Gyoto.Synch.kappa_increment_partial", "Gyoto.Synch.kappa_increment_wrong"], "note": "All but the beam are proved as stated. A beam is emitted by hot electrons (Theta >= 10) seen at 45 degrees or more from the field; at the least temperature the setter allows circular polarisation is more than 20 times the intensity. Indices up to a tenth above a tabulated one are accepted as that one; an object without an index gives a NaN."},
 {"property": "C115", "status": "partial", "theorems": ["Gyoto.HotSpot.spot_profile", "Gyoto.HotSpot.spot_ends", "Gyoto.HotSpot.spot_bounds", "Gyoto.HotSpot.spot_fainter", "Gyoto.HotSpot.cartesian_wrong", "Gyoto.HotSpot.spot_beams", "Gyoto.HotSpot.own_circle", "Gyoto.HotSpot.off_circle_wrong", "Gyoto.HotSpot.spot_transparent", "Gyoto.HotSpot.beaming_name", "Gyoto.HotSpot.legacy_beaming"], "note": "Proved: profile, edge, beams, transparency, names. Refuted: the velocity is that of the centre; around a Schwarzschild black hole it is not a unit vector anywhere off the centre's circle, and there a beamed spot throws for some photons; with Cartesian coordinates x and z are taken for a radius and an angle. The beam and velocity are therefore proved where the velocity used is that of an observer at the hit (in Kerr, on the circle of the centre)."},
 {"property": "C116", "status": "partial", "theorems": ["Gyoto.StokesStep.step_ok", "Gyoto.StokesStep.exact_partial", "Gyoto.StokesStep.sends_beams_partial", "Gyoto.StokesStep.passes_beams", "Gyoto.StokesStep.ray_beam", "Gyoto.StokesStep.cut", "Gyoto.StokesStep.equilibrium", "Gyoto.StokesStep.thick_thermal", "Gyoto.StokesStep.dark_wrong", "Gyoto.StokesStep.grey_wrong", "Gyoto.StokesStep.thin_wrong"], "note": "Proved for matter whose absorption exceeds its polarised absorption. Refuted: a cell that absorbs without emitting is transparent (dark_wrong), a cell without polarised coefficients emits but does not absorb (grey_wrong), and a thin cell with completely polarised emission sends light more polarised than bright (thin_wrong); exactness needs a cell neither thin nor thick and coefficients not balanced (exact_partial)."},
 {"property": "C117", "status": "partial", "theorems": ["Gyoto.HotSpot.angle_ok", "Gyoto.HotSpot.angle_gauge", "Gyoto.HotSpot.angle_reversed", "Gyoto.HotSpot.angle_any_speed", "Gyoto.HotSpot.angle_ub", "Gyoto.HotSpot.field_unit", "Gyoto.HotSpot.vertical_angle", "Gyoto.HotSpot.radial_angle", "Gyoto.HotSpot.toroidal_angle", "Gyoto.HotSpot.toroidal_static", "Gyoto.HotSpot.toroidal_tilted_wrong", "Gyoto.HotSpot.toroidal_wrong", "Gyoto.HotSpot.spot_plasma", "Gyoto.HotSpot.spot_reach", "Gyoto.HotSpot.spot_dark", "Gyoto.HotSpot.config_needed", "Gyoto.HotSpot.along_throws"], "note": "The angle is proved for all fields, observers and rays. Refuted: the toroidal field of the hot spot is orthogonal to the velocity only if g_tphi is zero (toroidal_tilted_wrong) and is not a number on some free circular orbits (toroidal_wrong). Not proved: the direction of the mixed configuration Radial-Azimuthal around a rotating centre."},
 {"property": "C118", "status": "partial", "theorems": ["Gyoto.JetFlow.order_kept", "Gyoto.JetFlow.alpha_kept", "Gyoto.JetFlow.refused_kept_wrong", "Gyoto.JetFlow.change_order_wrong", "Gyoto.JetFlow.inside_parabolas", "Gyoto.JetFlow.inside_cones", "Gyoto.JetFlow.polar_spherical", "Gyoto.JetFlow.unset_wrong", "Gyoto.JetFlow.unset_angles_wrong", "Gyoto.JetFlow.wide_wrong", "Gyoto.JetFlow.density_law", "Gyoto.JetFlow.base_parabola", "Gyoto.JetFlow.base_cone_wrong", "Gyoto.JetFlow.base_cone_partial", "Gyoto.JetFlow.temperature_law", "Gyoto.JetFlow.density_given"], "note": "Shape, settings, density and temperature proved. Refuted for conical walls (density at the base), for parameters not given, for refused parameters, which are kept, and for wide angles."},
 {"property": "C119", "status": "partial", "theorems": ["Gyoto.JetFlow.velocity_ok", "Gyoto.JetFlow.conical_heading", "Gyoto.JetFlow.across", "Gyoto.JetFlow.along_wall", "Gyoto.JetFlow.leaves_wall_wrong", "Gyoto.JetFlow.kerr_leaves_wrong", "Gyoto.JetFlow.inflow_ratio_wrong", "Gyoto.JetFlow.negative_wrong", "Gyoto.JetFlow.slow_throws", "Gyoto.JetFlow.cartesian_wrong"], "note": "Norm, Lorentz factor and ratio proved; the gas follows the wall only where the meridional planes are conformally flat in these coordinates."},
 {"property": "C12", "status": "partial", "theorems": ["Gyoto.Property.lookup_first", "Gyoto.Property.lookup_property_partial", "Gyoto.Property.names_listed", "Gyoto.Property.class_name_is_found"], "note": "First match over all declared entries proved for every chain; the name of a class is itself found as if it were a property, so 'fails exactly when no class declares the name' only holds for names which are not class names."},
 {"property": "C120", "status": "partial", "theorems": ["Gyoto.JetFlow.combined_unit", "Gyoto.JetFlow.combined_frame", "Gyoto.JetFlow.combined_ends", "Gyoto.JetFlow.polarised_wrong"], "note": "Unit vector and ends of the range proved; the field is not the same for polarised light."},
 {"property": "C121", "status": "partial", "theorems": ["Gyoto.DefTorus.kind_names", "Gyoto.DefTorus.ellipse", "Gyoto.DefTorus.area_kept", "Gyoto.DefTorus.opposite_wrong", "Gyoto.DefTorus.new_moves_wrong", "Gyoto.DefTorus.unstable_wrong", "Gyoto.DefTorus.beta_wrong", "Gyoto.DefTorus.beta_partial"], "note": "Ellipse, area and names proved. Refuted: the gas moves opposite to the surface for all seven kinds (opposite_wrong, new_moves_wrong); a centre inside the last stable orbit makes the whole equatorial plane inside (unstable_wrong); a refused Beta is kept and zero is accepted (beta_wrong)."},
 {"property": "C122", "status": "partial", "theorems": ["Gyoto.DefTorus.momentum", "Gyoto.DefTorus.norm_eq", "Gyoto.DefTorus.unit_partial", "Gyoto.DefTorus.future", "Gyoto.DefTorus.norm_wrong", "Gyoto.DefTorus.new_norm_wrong", "Gyoto.DefTorus.centre", "Gyoto.DefTorus.radial_frequency", "Gyoto.DefTorus.vertical_frequency"], "note": "Momentum, direction, centre and both frequencies proved. Refuted: where the deformation moves the gas the velocity is not a unit vector; around a Schwarzschild black hole it is one only where the gas does not drift (norm_wrong), and a new torus has none at its centre (new_norm_wrong)."},
 {"property": "C123", "status": "partial", "theorems": ["Gyoto.OscTorus.kind_names", "Gyoto.OscTorus.frequencies", "Gyoto.OscTorus.modes", "Gyoto.OscTorus.order", "Gyoto.OscTorus.pattern", "Gyoto.OscTorus.ellipse", "Gyoto.OscTorus.index_wrong"], "note": "Proved for positive index; a negative polytropic index is accepted and gives values that are not numbers (index_wrong)."},
 {"property": "C124", "status": "partial", "theorems": ["Gyoto.OscTorus.history", "Gyoto.OscTorus.unit_wrong", "Gyoto.OscTorus.refused_wrong"], "note": "Proved for all histories without the setter with a unit and without errors; largeRadius with a unit does not update the cached values, and an error leaves a mixture of old and new values."},
 {"property": "C125", "status": "partial", "theorems": ["Gyoto.OscTorus.velocity", "Gyoto.OscTorus.future", "Gyoto.OscTorus.centre", "Gyoto.OscTorus.flow_gradient", "Gyoto.OscTorus.surface_partial", "Gyoto.OscTorus.surface_wrong"], "note": "Norm, momentum, future and centre proved. The surface follows the gas at first order only for index 1 (surface_partial); refuted for any other index."},
 {"property": "C126", "status": "partial", "theorems": ["Gyoto.OscTorus.read_partial", "Gyoto.OscTorus.newline_wrong", "Gyoto.OscTorus.read_wrong", "Gyoto.OscTorus.area_first", "Gyoto.OscTorus.area_last", "Gyoto.OscTorus.area_wrong", "Gyoto.OscTorus.area_partial", "Gyoto.OscTorus.last_wrong", "Gyoto.OscTorus.reduce", "Gyoto.OscTorus.emission_periodic", "Gyoto.OscTorus.emission_ok", "Gyoto.OscTorus.bright_wrong", "Gyoto.OscTorus.negative_wrong", "Gyoto.OscTorus.copy_partial", "Gyoto.OscTorus.copy_wrong"], "note": "Interpolation has a slope of the wrong sign and skips the last interval; final line feed doubles the last line; negative dates not reduced; copy loses the name of the file. What holds is proved."},
 {"property": "C127", "status": "partial", "theorems": ["Gyoto.Thick.kerr_velocity", "Gyoto.Thick.circles_unique", "Gyoto.Thick.falls_unique", "Gyoto.Thick.kerr_ends", "Gyoto.Thick.kerr_inflow", "Gyoto.Thick.veloParam_kept", "Gyoto.Thick.refused_wrong", "Gyoto.Thick.cartesian_wrong", "Gyoto.Thick.cartesian_throws"], "note": "Proved for Kerr black holes in Boyer-Lindquist coordinates everywhere outside the horizon. Refuted: refused values of VeloParam stay in the object, and in Cartesian coordinates x and y are taken for r and theta."},
 {"property": "C128", "status": "partial", "theorems": ["Gyoto.Thick.gas", "Gyoto.Thick.gas_cartesian", "Gyoto.Thick.axis_empty", "Gyoto.Thick.density_kept", "Gyoto.Thick.history", "Gyoto.Thick.self_absorbed", "Gyoto.Thick.not_absorbed", "Gyoto.Thick.thin_dark", "Gyoto.Thick.polarised_plasma", "Gyoto.Thick.magnetization_wrong", "Gyoto.Thick.inner_wrong", "Gyoto.Thick.polarised_absorption_wrong"], "note": "The density, the temperature, the light and its independence of history are proved. Refuted: the magnetic pressure is half of what the magnetization says, the gas inside the inner radius shines for unpolarised light only, and self-absorption cannot be switched off for polarised light."},
 {"property": "C129", "status": "partial", "theorems": ["Gyoto.Flared.field_strength", "Gyoto.Flared.given_back", "Gyoto.Flared.default_index_wrong", "Gyoto.Flared.sizes", "Gyoto.Flared.copy_eq", "Gyoto.Flared.copy_wrong", "Gyoto.Flared.file_loads", "Gyoto.Flared.loaded", "Gyoto.Flared.reread_wrong", "Gyoto.Flared.dates_wrong", "Gyoto.Flared.stale_field_wrong", "Gyoto.Flared.null_field_wrong", "Gyoto.Flared.spacing_wrong", "Gyoto.Flared.translation", "Gyoto.Flared.translation_wrong"], "note": "Proved for all histories: strength of the field, sizes of density and velocity if no file was refused, reading, first translation, copies of consistent objects. Refuted: later translations and re-reading separate the dates from their limits; the number of dates in a file is not checked; a stale or removed field stays in use; data from memory leave the steps of the grid zero; the default index is 8/3."},
 {"property": "C13", "status": "partial", "theorems": ["Gyoto.Property.set_get", "Gyoto.Property.set_negative", "Gyoto.Property.setU_getU", "Gyoto.Property.unit_refused", "Gyoto.Property.wrong_type_refused_partial", "Gyoto.Property.wrong_type_is_converted"], "note": "Round trip, negative names, units and frame proved; a wrong numeric type is converted instead of refused (witness)."},
 {"property": "C130", "status": "partial", "theorems": ["Gyoto.Flared.shape", "Gyoto.Flared.gas_law", "Gyoto.Flared.velocity_partial", "Gyoto.Flared.velocity_wrong", "Gyoto.Flared.cartesian_wrong", "Gyoto.Flared.value_exists", "Gyoto.Flared.field_norm_wrong", "Gyoto.Flared.light", "Gyoto.Flared.light_table", "Gyoto.Flared.light_history"], "note": "Refuted: gas faster than light gets a zero velocity; in Cartesian coordinates there is no velocity and the height is taken for the azimuth; the strength of a tabulated field is the root of the sum of squares of its coordinate components. The hypergeometric function is a parameter."},
 {"property": "C131", "status": "partial", "theorems": ["Gyoto.Doughnut.exclusive", "Gyoto.Doughnut.follows_partial", "Gyoto.Doughnut.order_free", "Gyoto.Doughnut.given_back", "Gyoto.Doughnut.refused_kept", "Gyoto.Doughnut.refused_rinner_wrong", "Gyoto.Doughnut.refused_lambda_wrong", "Gyoto.Doughnut.cusp_late_wrong", "Gyoto.Doughnut.no_centre_wrong", "Gyoto.Doughnut.adaf_element_wrong", "Gyoto.Doughnut.found", "Gyoto.Doughnut.schwarzschild"], "note": "Holds for histories in which every call is accepted and ChangeCusp is not changed once the torus is there. Refused values change the object, ChangeCusp set afterwards is not followed, an inner radius without a centre is accepted; each is proved."},
 {"property": "C132", "status": "partial", "theorems": ["Gyoto.Doughnut.velocity_kerr", "Gyoto.Doughnut.inside_iff", "Gyoto.Doughnut.gas_moves", "Gyoto.Doughnut.lobe", "Gyoto.Doughnut.closed", "Gyoto.Doughnut.located", "Gyoto.Doughnut.free_fall", "Gyoto.Doughnut.negative_spin_wrong"], "note": "Proved for the Kerr metric with a spin from 0 to 1; for negative spins the radii of the metric are of different senses of rotation and the claim is false (negative_spin_wrong). Shape and velocity are proved for every spin. Other metrics are not instantiated."},
 {"property": "C133", "status": "proved", "theorems": ["Gyoto.Doughnut.equilibrium", "Gyoto.Doughnut.equilibrium_averaged", "Gyoto.Doughnut.gas_there", "Gyoto.Doughnut.euler", "Gyoto.Doughnut.depth", "Gyoto.Doughnut.gas_everywhere", "Gyoto.Doughnut.field_frame", "Gyoto.Doughnut.shines", "Gyoto.Doughnut.thermal_light", "Gyoto.Doughnut.torus_light", "Gyoto.Doughnut.unset_gap_wrong", "Gyoto.Doughnut.default_beta_wrong", "Gyoto.Doughnut.negative_fraction_wrong", "Gyoto.Doughnut.flow_needs_average"], "note": "Equilibrium for any metric with positive areas; positivity everywhere inside, the angle and the light for Kerr. The four last are what is found outside of the hypotheses: the gap of the potential is not set by the constructor, the default Beta of 0 gives a dark torus, a negative fraction of other electrons is computed and left out."},
 {"property": "C134", "status": "proved", "theorems": ["Gyoto.Doughnut.channels", "Gyoto.Doughnut.channels_tend", "Gyoto.Doughnut.channels_flat", "Gyoto.Doughnut.no_parts_wrong"], "note": "The emission is a function of the frequency alone. An oversampling of 0 writes outside of the arrays."},
 {"property": "C135", "status": "partial", "theorems": ["Gyoto.Kerr2PN.tied_partial", "Gyoto.Kerr2PN.tied_wrong", "Gyoto.Kerr2PN.reload_partial", "Gyoto.Kerr2PN.reload_sign_wrong", "Gyoto.Kerr2PN.reload_free_wrong", "Gyoto.Kerr2PN.flat_wrong", "Gyoto.Kerr2PN.symbols", "Gyoto.Kerr2PN.stops"], "note": "The symbols and the stop condition hold. The tie holds as long as it was never let go and nothing was refused; a hole comes back from a file if its spin is not negative and the tie holds; the rest is refuted, and the metric is flat (a stub)."},
 {"property": "C136", "status": "partial", "theorems": ["Gyoto.DiskLaws.pl_light", "Gyoto.DiskLaws.pl_scaling", "Gyoto.DiskLaws.pl_default_wrong", "Gyoto.DiskLaws.bb_grid", "Gyoto.DiskLaws.line_band", "Gyoto.DiskLaws.line_total", "Gyoto.DiskLaws.line_keV_partial", "Gyoto.DiskLaws.line_unit_wrong", "Gyoto.DiskLaws.line_two_ways_wrong", "Gyoto.DiskLaws.bolometric", "Gyoto.DiskLaws.bolometric_refuses", "Gyoto.DiskLaws.bolometric_refused_wrong"], "note": "All holds except: a line given with a unit is placed at a frequency multiplied once more by the hertz of one keV (refuted for every unit), a refused spectrum leaves the bolometric intensity added, and a slope without an inner radius gives no temperature."},
 {"property": "C137", "status": "partial", "theorems": ["Gyoto.Lorene.christoffel_is_connection", "Gyoto.Lorene.lapse_shift", "Gyoto.Lorene.gmunu_di_partial", "Gyoto.Lorene.gmunu_di_wrong", "Gyoto.Lorene.gmunu_up_partial", "Gyoto.Lorene.gmunu_up_wrong", "Gyoto.Lorene.gmunu_up_dr", "Gyoto.Lorene.christoffel1_wrong", "Gyoto.Lorene.christoffel1_partial"], "note": "christoffel(dst) is the connection of gmunu for every circular slice; the single-component christoffel is wrong in the components listed in wrongOnes (wrong index of the curvature and of the inverse metric, a factor applied twice), gmunu_up is the inverse only where the spatial metric is its own inverse, and the radial derivative of g_tt in gmunu_di is wrong off the equator."},
 {"property": "C138", "status": "partial", "theorems": ["Gyoto.Lorene.diff_general", "Gyoto.Lorene.diff_geodesic", "Gyoto.Lorene.branches_agree", "Gyoto.Lorene.before_first_date_wrong", "Gyoto.Lorene.neville_cubic", "Gyoto.Lorene.interp_at", "Gyoto.Lorene.interp_after", "Gyoto.Lorene.interp_exact", "Gyoto.Lorene.interp_continuous", "Gyoto.Lorene.single_slice_wrong", "Gyoto.Lorene.fall_wrong", "Gyoto.Lorene.fall_partial", "Gyoto.Lorene.lapse_wrong", "Gyoto.Lorene.diff31_wrong", "Gyoto.Lorene.christoffel_dates"], "note": "The motion is right in every slice and the interpolation of gmunu, diff and computeNBeta is exact, continuous and keeps the slices from the first date on. Before the first date the search reads the element before the table; gmunu_up and gmunu_di fall through their first three cases; interpolated lapse and metric disagree between dates; diff31 always uses date zero."},
 {"property": "C139", "status": "partial", "theorems": ["Gyoto.Lorene.circular_unit", "Gyoto.Lorene.circular_exists", "Gyoto.Lorene.circular_free", "Gyoto.Lorene.momentum_orbit", "Gyoto.Lorene.potential_orbit", "Gyoto.Lorene.direction_wrong", "Gyoto.Lorene.superluminal_wrong", "Gyoto.Lorene.circular_after", "Gyoto.Lorene.circular_dates_wrong", "Gyoto.Lorene.matter_unit"], "note": "Proved for one slice: unit, free fall in the equatorial plane, momentum, potential, matter. The direction is ignored, orbits faster than light give not-a-number and a momentum instead of an error, and between dates the test of the norm refuses every orbit if the slices differ."},
 {"property": "C14", "status": "partial", "theorems": ["Gyoto.IntText.long_round_trip", "Gyoto.IntText.ulong_round_trip", "Gyoto.IntText.text_fits", "Gyoto.IntText.ulong_vector_round_trip_partial", "Gyoto.IntText.ulong_vector_large"], "note": "Scalars proved for the whole range (text also fits the buffer); vectors are read with atol, undefined from 2^63 on (proved)."},
 {"property": "C140", "status": "partial", "theorems": ["Gyoto.Atmosphere.read_complete", "Gyoto.Atmosphere.step_ok", "Gyoto.Atmosphere.reachable_partial", "Gyoto.Atmosphere.clone_partial", "Gyoto.Atmosphere.write_read", "Gyoto.Atmosphere.refused_wrong", "Gyoto.Atmosphere.name_wrong"], "note": "A file that is refused half-way leaves the sizes out of step, and a copy forgets the name of the file (both proved as negations). For calls whose arrays have the announced sizes and files that are complete everything holds."},
 {"property": "C141", "status": "partial", "theorems": ["Gyoto.Atmosphere.inside_ok", "Gyoto.Atmosphere.single_ok", "Gyoto.Atmosphere.outside_partial", "Gyoto.Atmosphere.cosine_ok", "Gyoto.Atmosphere.emission_ok", "Gyoto.Atmosphere.freq_wrong", "Gyoto.Atmosphere.layout_wrong"], "note": "Above the highest frequency the search runs out of the array, and the table is read with the gravity fastest where the header documents the frequency fastest (both proved as negations)."},
 {"property": "C142", "status": "partial", "theorems": ["Gyoto.DynDisk3D.dated_inTime_partial", "Gyoto.DynDisk3D.dated_last_wrong", "Gyoto.DynDisk3D.thin_ok", "Gyoto.DynDisk3D.source_ok", "Gyoto.DynDisk3D.split_wrong", "Gyoto.DynDisk3D.transmission_range", "Gyoto.DynDisk3D.floor_ok", "Gyoto.DynDisk3D.opaque_wrong", "Gyoto.DynDisk3D.velocity_norm", "Gyoto.DynDisk3D.velocity_wrong", "Gyoto.DynDisk3D.unset_wrong", "Gyoto.DynDisk3D.freed_wrong"], "note": "Between the last two dates there is no interpolation; interpolated velocities are not unit vectors; where nothing is emitted all light is stopped; the light of a step depends on how it is split; a disk without directory, and one whose grid is replaced after use, are undefined (all proved as negations). Reading the files is not modelled."},
 {"property": "C143", "status": "partial", "theorems": ["Gyoto.SimBridge.emission_partial", "Gyoto.SimBridge.emission_wrong", "Gyoto.SimBridge.boundary_set", "Gyoto.SimBridge.boundary_kept", "Gyoto.SimBridge.boundary_words", "Gyoto.SimBridge.date_partial", "Gyoto.SimBridge.date_out", "Gyoto.SimBridge.date_first_wrong", "Gyoto.SimBridge.flags_partial", "Gyoto.SimBridge.flags_sound", "Gyoto.SimBridge.flags_wrong", "Gyoto.SimBridge.mode_ok", "Gyoto.SimBridge.mode_wrong", "Gyoto.SimBridge.table_refused_wrong", "Gyoto.SimBridge.table_short_wrong", "Gyoto.SimBridge.fall_ok", "Gyoto.SimBridge.inside_iff", "Gyoto.SimBridge.hover_wrong", "Gyoto.SimBridge.hover_axis_wrong"], "note": "The conditions at the boundaries, the dates after the first, the tables after no absent one and the free fall are proved. The code breaks the rest, with witnesses: the kind BB cannot be read back, the first date asks for file -1, a table after an absent one is not seen, a second file with temperatures is read as emissions, complete tables of coefficients are refused and the accepted ones read beyond their end, and the opening of the disk is an angle used as a ratio."},
 {"property": "C144", "status": "partial", "theorems": ["Gyoto.RotStar.christoffel_ok", "Gyoto.RotStar.diff4_ok", "Gyoto.RotStar.diff31_geodesic", "Gyoto.RotStar.normalize_ok", "Gyoto.RotStar.normalize_id", "Gyoto.RotStar.step_ok", "Gyoto.RotStar.radius_wrong", "Gyoto.RotStar.asked_wrong"], "note": "The connection, the two equations of motion, the normalisation and the general limits of the steps are proved. The code breaks the two other limits: the step asked for is ignored, and the limit relative to the radius uses the colatitude, as the array given to deltaMax begins with the radius."},
 {"property": "C145", "status": "partial", "theorems": ["Gyoto.MinkowskiKepler.newton_ok", "Gyoto.MinkowskiKepler.norm_ok", "Gyoto.MinkowskiKepler.momentum_ok", "Gyoto.MinkowskiKepler.energy_ok", "Gyoto.MinkowskiKepler.kepler_third", "Gyoto.MinkowskiKepler.spherical_partial", "Gyoto.MinkowskiKepler.pole_wrong", "Gyoto.MinkowskiKepler.centre_iff", "Gyoto.MinkowskiKepler.frame_ok", "Gyoto.MinkowskiKepler.frame_some", "Gyoto.MinkowskiKepler.observer_wrong"], "note": "Newton's law, the constants of motion, Kepler's third law and the frame are proved for all motions. Spherical coordinates agree with Cartesian ones for a colatitude between 0 and pi (spherical_partial); past a pole the second derivative of the colatitude has the wrong sign (pole_wrong). A Keplerian observer without Keplerian set gets an error after its frame is computed (observer_wrong)."},
 {"property": "C146", "status": "partial", "theorems": ["Gyoto.Xillver.lamp_partial", "Gyoto.Xillver.zero_partial", "Gyoto.Xillver.zero_negative_wrong", "Gyoto.Xillver.stuck_wrong", "Gyoto.Xillver.flux_partial", "Gyoto.Xillver.flux_wrap", "Gyoto.Xillver.gap_wrong", "Gyoto.Xillver.edge_wrong", "Gyoto.Xillver.spin_partial", "Gyoto.Xillver.refused_wrong", "Gyoto.Xillver.clone_wrong", "Gyoto.Xillver.period_ok"], "note": "Proved for a date of origin in the first period (zero_partial: what the setter gives for a date that is not negative), for azimuths above the first of the table up to 2 pi, and for calls that are not refused. False: a negative date of origin throws (zero_negative_wrong), a period that is not positive does not end at negative dates (stuck_wrong), below the first azimuth the value is extrapolated and may be negative (gap_wrong), under the lamp and at the first azimuth an exception (edge_wrong), a refused metric and a clone lose the hook (refused_wrong, clone_wrong)."},
 {"property": "C147", "status": "partial", "theorems": ["Gyoto.XillverRefl.inside_partial", "Gyoto.XillverRefl.outside_ok", "Gyoto.XillverRefl.refused", "Gyoto.XillverRefl.angle_wrong", "Gyoto.XillverRefl.ionization_wrong", "Gyoto.XillverRefl.layout_wrong"], "note": "inside_partial: for every table, the mean of the eight values in the layout that the code uses, strictly after the first angle and ionization; outside_ok: out of the angles. Proved false: the first angle and the first ionization throw (angle_wrong, ionization_wrong), and the layout read is not the one documented (layout_wrong). Not proved: the domain without these first values, because it is false."},
 {"property": "C148", "status": "partial", "theorems": ["Gyoto.PolarBasis.photon_ok", "Gyoto.PolarBasis.accepted", "Gyoto.PolarBasis.kept", "Gyoto.PolarBasis.corrected_partial", "Gyoto.PolarBasis.kerr_ok", "Gyoto.PolarBasis.timelike_wrong", "Gyoto.PolarBasis.uncorrected_wrong", "Gyoto.PolarBasis.null_wrong", "Gyoto.PolarBasis.swap_wrong"], "note": "photon_ok: a spacelike photon becomes null by the smallest change; accepted: a state within tolerance is unchanged; corrected_partial: the vectors written by the integrator are orthogonal, with norms 1 or -1; kerr_ok. Proved false: the correction of checkBasis is lost (uncorrected_wrong, kept), a timelike photon is never corrected (timelike_wrong), an exactly null photon allows no correction (null_wrong), and the integrator exchanges Ephi and Etheta (swap_wrong)."},
 {"property": "C149", "status": "partial", "theorems": ["Gyoto.IpoleField.orthogonal", "Gyoto.IpoleField.spacelike", "Gyoto.IpoleField.toroidal", "Gyoto.IpoleField.radial_ok", "Gyoto.IpoleField.vertical_partial", "Gyoto.IpoleField.refused", "Gyoto.IpoleField.toroidal_spacelike"], "note": "orthogonal, spacelike, toroidal, radial_ok, refused: in full. vertical_partial: the direction is upwards (radial component with the sign of the cosine, component on the colatitude negative); the exact vertical direction is not reached because the potential is differentiated over finite steps of 0.025."},
 {"property": "C15", "status": "proved", "theorems": ["Gyoto.Factory.written_once", "Gyoto.Factory.constructors_started", "Gyoto.Factory.read_shared"], "note": "Writing and reading, for every sequence of requests."},
 {"property": "C150", "status": "partial", "theorems": ["Gyoto.LoreneSettings.coherent_partial", "Gyoto.LoreneSettings.late_wrong", "Gyoto.LoreneSettings.clone_partial", "Gyoto.LoreneSettings.clone_wrong"], "note": "coherent_partial: by induction, for every sequence of accepted calls; clone_partial: the copy has the settings of its class and its tables, and is equal if and only if the settings of all metrics have their first values. Proved false: a refused setting is stored (late_wrong), the copy forgets the mass and the steps (clone_wrong)."},
 {"property": "C16", "status": "proved", "theorems": ["Gyoto.Factory.fullPath_place"], "note": "dirname and getcwd are parameters; the place designated is specified on path components."},
 {"property": "C17", "status": "proved", "theorems": ["Gyoto.Register.lookup_most_recent", "Gyoto.Register.from_named_plugins", "Gyoto.Register.named_plugins_error", "Gyoto.Register.from_any_plugin", "Gyoto.Register.found_is_registered"], "note": "Plug-in loading and glob expansion are parameters."},
 {"property": "C18", "status": "proved", "theorems": ["Gyoto.Text.split_iff", "Gyoto.Text.split_pieces"], "note": "The result is characterised uniquely."},
 {"property": "C19", "status": "partial", "theorems": ["Gyoto.Text.leave_restores_partial", "Gyoto.Text.leave_outside", "Gyoto.Text.other_mode_forgets"], "note": "Proved with a single non-zero mode; switching from one debug mode to another forgets the saved verbosity (witness)."},
 {"property": "C20", "status": "partial", "theorems": ["Gyoto.Matrix4.invert_some_iff", "Gyoto.Matrix4.invert_partial", "Gyoto.Matrix4.invert_wrong"], "note": "The code violates the full statement (invert_wrong: an invertible symmetric matrix whose result is not the inverse). Proved: a result is returned exactly for invertible matrices, and it is the inverse when each coordinate is coupled with at most one other."},
 {"property": "C21", "status": "proved", "theorems": ["Gyoto.Matrix4.circular_invert"], "note": "Exact arithmetic over any ordered field."},
 {"property": "C22", "status": "proved", "theorems": ["Gyoto.MetricAlg.nullify"], "note": "Real arithmetic; division by zero and negative radicand have no value in the model."},
 {"property": "C23", "status": "proved", "theorems": ["Gyoto.MetricAlg.normalize_unit", "Gyoto.MetricAlg.normalize_fast"], "note": "Real arithmetic."},
 {"property": "C24", "status": "proved", "theorems": ["Gyoto.MetricAlg.project_orthogonal", "Gyoto.MetricAlg.gramSchmidt_orthonormal", "Gyoto.MetricAlg.gramSchmidt_lorentzian"], "note": "Real arithmetic; the last theorem shows that the procedure never meets a null vector for a Lorentzian metric and independent vectors."},
 {"property": "C25", "status": "proved", "theorems": ["Gyoto.MetricAlg.christoffel_symm", "Gyoto.MetricAlg.christoffel_compatible", "Gyoto.MetricAlg.transport_derivative", "Gyoto.MetricAlg.transport_conserved"], "note": "Real arithmetic; exact solutions of the equations of motion (the numerical integrator is not modelled here)."},
 {"property": "C26", "status": "proved", "theorems": ["Gyoto.MetricDispatch.dispatch_history"], "note": "For every subset of the six methods and every sequence of calls from the initial flags: each call returns the specified value within 7 nested calls and never reads g0 uninitialised. The user's methods are functions of the position; inverse metrics are assumed symmetric."},
 {"property": "C27", "status": "proved", "theorems": ["Gyoto.Emission.emission_history"], "note": "For every subset of the five methods and every sequence of calls: each call returns the specified value within 7 nested calls."},
 {"property": "C28", "status": "partial", "theorems": ["Gyoto.Transfer.unpolarised_emission_partial", "Gyoto.Transfer.unpolarised_coefficient", "Gyoto.Transfer.unpolarised_opacity_iff", "Gyoto.Transfer.unpolarised_opacity_wrong"], "note": "False in the code: the polarised default returns the absorption coefficient where the transmitted fraction is expected. Proved: the object's own light is right; the coefficient is the one whose effect over the step is the transmitted fraction; opacities agree iff coefficient and fraction coincide; transparent objects hide everything, opaque ones amplify by 1e300."},
 {"property": "C29", "status": "proved", "theorems": ["Gyoto.Camera.axes_cached", "Gyoto.Camera.axes_fresh", "Gyoto.Camera.axes_orthonormal", "Gyoto.Camera.sky_roundtrip", "Gyoto.Camera.sky_roundtrip_cartesian", "Gyoto.Camera.sky_inverse", "Gyoto.Camera.sky_roundtrip_spherical", "Gyoto.Camera.sky_roundtrip_spherical_exact"], "note": "Spherical coordinates: the origin gives not-a-number (stated in the theorem)."},
 {"property": "C30", "status": "proved", "theorems": ["Gyoto.Camera.observer_position_spherical", "Gyoto.Camera.observer_position_cartesian", "Gyoto.Camera.observer_position_orientation"], "note": "Cartesian: all positions but the origin, where the result is not a number. Setting the position also resets the position angle to pi."},
 {"property": "C31", "status": "proved", "theorems": ["Gyoto.Camera.ray_unit", "Gyoto.Camera.ray_null", "Gyoto.Camera.ray_null_observer", "Gyoto.Camera.ray_null_infinity"], "note": "Reals instead of doubles; equatorial angles as computed with boost multiprecision."},
 {"property": "C32", "status": "partial", "theorems": ["Gyoto.Interp.interpolate_value_partial", "Gyoto.Interp.interpolate_regular_partial", "Gyoto.Interp.interpolate_node", "Gyoto.Interp.interpolate_bounds", "Gyoto.Interp.interpolate_affine_partial", "Gyoto.Interp.interpolate_none", "Gyoto.Interp.interpolate_null", "Gyoto.Interp.constant_wrong", "Gyoto.Interp.linear_wrong"], "note": "Inside the table: node values, bounds, exactness on functions affine in each variable, in any dimension. The claim on boundary conditions is false: the condition consulted for Constant is that of the mirror dimension (constant_wrong, linear_wrong)."},
 {"property": "C33", "status": "partial", "theorems": ["Gyoto.Interp.nodes_index_in_bounds_partial", "Gyoto.Interp.floor_cell", "Gyoto.Interp.regular_index_in_bounds_partial", "Gyoto.Interp.regular_last_wrong", "Gyoto.Interp.periodic_partial", "Gyoto.Interp.periodic_multiple_wrong", "Gyoto.Interp.periodic_origin_wrong", "Gyoto.Interp.grid_steady_partial", "Gyoto.Interp.grid_moving", "Gyoto.Interp.grid_dates_partial", "Gyoto.Interp.grid_regular_dates_partial", "Gyoto.Interp.grid_regular_dates_wrong", "Gyoto.Interp.grid_last_date_wrong", "Gyoto.Interp.grid_last_azimuth_wrong", "Gyoto.Interp.grid_last_azimuth_ub", "Gyoto.Interp.grid_outside_radius_wrong"], "note": "Proved strictly inside the table; false at the upper bound of regular axes and for periodic axes not starting at zero or queried at a multiple of the period."},
 {"property": "C34", "status": "partial", "theorems": ["Gyoto.Bisect.findValue_surface", "Gyoto.Bisect.findValue_terminates_partial", "Gyoto.Bisect.findMin_spec", "Gyoto.Bisect.findMin_terminates", "Gyoto.Bisect.findMin_terminates_fine", "Gyoto.Bisect.findValue_adjacent_wrong"], "note": "For any rounding of dates the result has the stated properties. The search ends with exact arithmetic or fine enough dates, but never when two representable dates are further apart than the tolerance (findValue_adjacent_wrong)."},
 {"property": "C35", "status": "partial", "theorems": ["Gyoto.Impact.impact_in_segment", "Gyoto.Impact.impact_covers", "Gyoto.Impact.walk_covers", "Gyoto.Impact.impact_terminates_partial", "Gyoto.Impact.impact_step_wrong", "Gyoto.Impact.closest_distance", "Gyoto.Impact.first_minimum"], "note": "For any rounding, dates asked are in the segment and stretches are disjoint, in the segment, with ends in the object. Coverage and termination with exact arithmetic; a step that does not change the date makes it loop for ever (impact_step_wrong)."},
 {"property": "C36", "status": "partial", "theorems": ["Gyoto.ChannelInt.integrate_symm", "Gyoto.ChannelInt.integrate_trapezoidal", "Gyoto.ChannelInt.integrate_empty", "Gyoto.ChannelInt.integrate_affine_partial", "Gyoto.ChannelInt.integrate_negative_wrong", "Gyoto.ChannelInt.integrate_terminates", "Gyoto.ChannelInt.integrateAll_channel"], "note": "All parts proved, but exactness for affine spectra needs a non-negative integral: with a negative one the loop never ends (integrate_negative_wrong)."},
 {"property": "C37", "status": "partial", "theorems": ["Gyoto.Conv.kilograms_to_from", "Gyoto.Conv.kilograms_from_to", "Gyoto.Conv.kilograms_list", "Gyoto.Conv.seconds_to_from", "Gyoto.Conv.seconds_from_to", "Gyoto.Conv.seconds_list", "Gyoto.Conv.seconds_physical", "Gyoto.Conv.herz_to_from", "Gyoto.Conv.herz_from_to", "Gyoto.Conv.herz_list_wrong", "Gyoto.Conv.metres_to_from_partial", "Gyoto.Conv.metres_from_to_partial", "Gyoto.Conv.metres_list", "Gyoto.Conv.metres_physical", "Gyoto.Conv.geometrical_to_from_partial", "Gyoto.Conv.geometrical_from_to_partial", "Gyoto.Conv.geometricalTime_to_from", "Gyoto.Conv.geometricalTime_from_to", "Gyoto.Conv.geometrical_unit", "Gyoto.Conv.metres_second_wrong", "Gyoto.Conv.metres_hertz_wrong", "Gyoto.Conv.geometricalTime_geometrical_wrong"], "note": "Both builds (with and without libudunits2). Round trips hold for masses, times, frequencies (with libudunits2), lengths and geometrical units, except that FromMeters multiplies by c instead of dividing for units of time and frequency (metres_second_wrong, metres_hertz_wrong), that FromHerz returns 0 without libudunits2, and that the unit geometrical is refused for geometrical times."},
 {"property": "C38", "status": "partial", "theorems": ["Gyoto.Integrator.name_selects_partial", "Gyoto.Integrator.selected_name", "Gyoto.Integrator.copy_keeps_partial", "Gyoto.Integrator.classic_name_wrong", "Gyoto.Integrator.copy_31_wrong", "Gyoto.Integrator.select_31_wrong"], "note": "Violated by the code: the classic Cash-Karp name is not accepted back and copies lose the choice of the 3+1 formalism; the rest is proved."},
 {"property": "C39", "status": "partial", "theorems": ["Gyoto.Transfer.transmission_product", "Gyoto.Transfer.transmission_range", "Gyoto.Transfer.allocate_ready", "Gyoto.Transfer.transmit_bad_index", "Gyoto.Transfer.transmissionMax_greatest", "Gyoto.Transfer.transfer_ordered", "Gyoto.Transfer.copy_channels_partial", "Gyoto.Transfer.copy_freqobs", "Gyoto.Transfer.copy_freqobs_wrong", "Gyoto.Transfer.copy_matrix_wrong"], "note": "Products, range, maximum and polarised transfer proved. The copy keeps the transmission of each channel, but resets that at the observer's frequency and the matrices of all channels but the first (proved)."},
 {"property": "C40", "status": "partial", "theorems": ["Gyoto.Spectrometer.uniform_tiles", "Gyoto.Spectrometer.uniform_even", "Gyoto.Spectrometer.uniform_widths", "Gyoto.Spectrometer.setters", "Gyoto.Spectrometer.tell_concat", "Gyoto.Spectrometer.composite_follows_partial", "Gyoto.Spectrometer.composite_parts", "Gyoto.Spectrometer.copy_same", "Gyoto.Spectrometer.zero_copy_wrong", "Gyoto.Spectrometer.zero_append_wrong", "Gyoto.Spectrometer.zero_stale_wrong", "Gyoto.Spectrometer.twice_wrong", "Gyoto.Spectrometer.constructor_wrong"], "note": "Holds with at least one channel, a band that does not contain wavelength zero, distinct parts; otherwise violated by the code (null pointers after nSamples(0), stale composites, number of boundaries left at zero by the constructor). Composites inside composites are not modelled."},
 {"property": "C41", "status": "proved", "theorems": ["Gyoto.Step.distance_eq", "Gyoto.Step.deltaMax_ge_min", "Gyoto.Step.deltaMax_exact", "Gyoto.Step.deltaMax_le", "Gyoto.Step.min_over_max_wrong", "Gyoto.Step.object_cap", "Gyoto.Step.complex_cap"], "note": "When the smallest step exceeds the largest the smallest wins (min_over_max_wrong)."},
 {"property": "C42", "status": "proved", "theorems": ["Gyoto.Mask.mask_fits", "Gyoto.Mask.mask_query", "Gyoto.Mask.resolution_mask", "Gyoto.Mask.mask_set", "Gyoto.Mask.mask_origin", "Gyoto.Mask.mask_copy", "Gyoto.Mask.mask_name_wrong", "Gyoto.Mask.mask_name_stale_wrong"], "note": "Caller's arrays assumed long enough. Findings: the file name of a dropped mask is kept and saved."},
 {"property": "C43", "status": "partial", "theorems": ["Gyoto.Property.threadSafe_iff", "Gyoto.Property.screen_child_throws"], "note": "Proved for objects without a property of type screen; with one, the default answer is an exception (proved)."},
 {"property": "C44", "status": "proved", "theorems": ["Gyoto.Property.path_set", "Gyoto.Property.path_errors", "Gyoto.Property.param_bool"], "note": "Reading of texts is a parameter; full names of properties or classes take precedence over paths."},
 {"property": "C45", "status": "proved", "theorems": ["Gyoto.MetricAlg.circular_velocity", "Gyoto.MetricAlg.zamo_velocity", "Gyoto.MetricAlg.observer_tetrad", "Gyoto.MetricAlg.gramSchmidt_lorentzian"], "note": "Real arithmetic; keplerian_ set; dir is 1 or -1 (for other values spherical and Cartesian coordinates scale differently)."},
 {"property": "C46", "status": "partial", "theorems": ["Gyoto.Transfer.omatrix_exp_partial", "Gyoto.Transfer.theta_zero_iff", "Gyoto.Transfer.omatrix_identity_wrong", "Gyoto.Transfer.pmatrix_solves", "Gyoto.Transfer.pmatrix_regime"], "note": "Exponential proved whenever Theta is not zero; when the polarised coefficients vanish the code returns the identity (wrong, proved). Emission matrix: exact in the intermediate regime; the thick and thin approximations are modelled, their error is not bounded. Tests on infinities and NaN are left out."},
 {"property": "C47", "status": "partial", "theorems": ["Gyoto.Camera.ray_coordinates", "Gyoto.Camera.distance_check_wrong"], "note": "Same ray from distance 20 on; the minimum distance differs between the two branches (finding)."},
 {"property": "C48", "status": "partial", "theorems": ["Gyoto.Camera.move_angles", "Gyoto.Camera.ray_direction", "Gyoto.Camera.ray_direction_past_pole_wrong"], "note": "Equatorial angles with declination within 90 degrees; beyond, the direction is mirrored (negation proved). Offsets zero, observer at infinity."},
 {"property": "C49", "status": "partial", "theorems": ["Gyoto.Camera.polar_basis", "Gyoto.Camera.screen_isometry", "Gyoto.Camera.screen_isometry_spherical", "Gyoto.Camera.spherical_to_cartesian_components", "Gyoto.Camera.polar_basis_offset_wrong"], "note": "Holds without offset of the field; with an offset the basis is not transverse (negation proved)."},
 {"property": "C50", "status": "partial", "theorems": ["Gyoto.Camera.pixels_centred", "Gyoto.Camera.pixels_inside", "Gyoto.Camera.pixels_distinct", "Gyoto.Camera.rescale_observer", "Gyoto.Camera.rescale_azimuth_wrong"], "note": "For spherical screen angles the azimuth is scaled by mistake when the observer is moved (negation proved)."},
 {"property": "C51", "status": "partial", "theorems": ["Gyoto.Evpa.chi_magnetic", "Gyoto.Evpa.chi_magnetic_exists", "Gyoto.Evpa.chi_electric_partial", "Gyoto.Evpa.electric_wrong", "Gyoto.Evpa.chi_gauge", "Gyoto.Evpa.sinCos_reverse", "Gyoto.Evpa.rotate_linear", "Gyoto.Evpa.rotate_period"], "note": "Violated for electric fields whose north component is negative and west component is not: an error is thrown instead of the equivalent angle. Proved for a transported basis that is exactly orthonormal and orthogonal to the ray; the code also accepts deviations up to 1e-3."},
 {"property": "C52", "status": "partial", "theorems": ["Gyoto.BField.field_partial", "Gyoto.BField.cartesian_exists", "Gyoto.BField.spherical_exists", "Gyoto.BField.poloidalSph_partial", "Gyoto.BField.poloidalSph_wrong", "Gyoto.BField.poloidalSph_unit", "Gyoto.BField.parabolicSph_partial", "Gyoto.BField.parabolicSph_wrong", "Gyoto.BField.parabolicSph_unit", "Gyoto.BField.parabolicSph_axis_wrong", "Gyoto.BField.parse_spec", "Gyoto.BField.parabolicSph_dir_partial"], "note": "Violated in spherical coordinates: the poloidal vector is not orthogonal to an emitter moving towards decreasing colatitude, the parabolic one to any emitter moving in colatitude, and on the axis it is NaN. Proved for the other configurations, for circular metrics in spherical coordinates."},
 {"property": "C53", "status": "partial", "theorems": ["Gyoto.ThinDisk.same_side_misses", "Gyoto.ThinDisk.opposite_sides_cross", "Gyoto.ThinDisk.projected_radius", "Gyoto.ThinDisk.never_fishy", "Gyoto.ThinDisk.path_length", "Gyoto.ThinDisk.impact_terminates_partial", "Gyoto.ThinDisk.on_plane_twice_wrong", "Gyoto.ThinDisk.far_ends_wrong"], "note": "Proved for points off the plane, at least one of them within twice the outer radius. Points on the plane are counted twice and long steps with both ends far away are missed."},
 {"property": "C54", "status": "proved", "theorems": ["Gyoto.Three1.to31_exists", "Gyoto.Three1.to31_from31", "Gyoto.Three1.from31_to31", "Gyoto.Three1.norm_31", "Gyoto.Three1.null_31", "Gyoto.Three1.from31_step"], "note": ""},
 {"property": "C55", "status": "partial", "theorems": ["Gyoto.Three1.checkBasis_le", "Gyoto.Three1.checkBasis_zero", "Gyoto.Three1.reorthonormalize_partial", "Gyoto.Three1.reorthonormalize_null_wrong", "Gyoto.Three1.reorthonormalize_swaps_wrong"], "note": "The repair divides by zero for photons (null tangent) and exchanges the two vectors; proved for a tangent with nonzero norm."},
 {"property": "C56", "status": "proved", "theorems": ["Gyoto.Integrator.nextStep_current", "Gyoto.Integrator.doStep_current", "Gyoto.Integrator.legacy_31_wrong"], "note": "The Legacy integrator ignores the choice of the 3+1 formalism."},
 {"property": "C57", "status": "partial", "theorems": ["Gyoto.Step.adaptive_never_throws", "Gyoto.Step.adaptive_within_limits", "Gyoto.Step.adaptive_accepted", "Gyoto.Step.adaptive_terminates_partial", "Gyoto.Step.adaptive_zero_min_wrong"], "note": "Termination needs a positive smallest step; zero is accepted by the setter and then the search may not end."},
 {"property": "C58", "status": "partial", "theorems": ["Gyoto.Refined.impact_calls", "Gyoto.Refined.parts_are_list", "Gyoto.Refined.metric_all", "Gyoto.Refined.shared_partial", "Gyoto.Refined.shared_wrong", "Gyoto.Refined.rMax_is_max"], "note": "Parts, hits, radius and setting the metric proved in full. Sharing the metric holds once the composite has one; shared_wrong shows that a part appended before any metric is known never receives the metric taken from a later part."},
 {"property": "C59", "status": "proved", "theorems": ["Gyoto.Refined.refined_dates", "Gyoto.Refined.zero_step_wrong"], "note": "Over the reals. A step of zero is accepted by the code and leaves the number of dates undefined (zero_step_wrong)."},
 {"property": "C60", "status": "partial", "theorems": ["Gyoto.Spectrometer.band_unit_partial", "Gyoto.Spectrometer.band_log_stored", "Gyoto.Spectrometer.band_log_wrong", "Gyoto.Spectrometer.parseKind_spec"], "note": "Violated for logarithmic kinds: logarithm and power are exchanged in the getter."},
 {"property": "C61", "status": "proved", "theorems": ["Gyoto.KerrBL.coef_eq", "Gyoto.KerrBL.upCoef_eq", "Gyoto.KerrBL.gmunu_symm", "Gyoto.KerrBL.scalarProd_opt", "Gyoto.KerrBL.up_inverse", "Gyoto.Static.mk_coef", "Gyoto.Static.rn_up_inverse"], "note": ""},
 {"property": "C62", "status": "partial", "theorems": ["Gyoto.KerrBL.christoffel_ok", "Gyoto.Static.mk_christoffel_coef", "Gyoto.Static.mk_christoffel_ok", "Gyoto.Static.sh_christoffel_ok", "Gyoto.Static.rn_christoffel_ok", "Gyoto.Static.RZ.christoffel_ok", "Gyoto.BalasinGrumiller.symbols_ok", "Gyoto.BalasinGrumiller.DWDr_ok", "Gyoto.BalasinGrumiller.trueDth_ok", "Gyoto.BalasinGrumiller.christoffel_iff", "Gyoto.BalasinGrumiller.christoffel_partial", "Gyoto.BalasinGrumiller.christoffel_wrong"], "note": "Violated by the Balasin-Grumiller metric off the equatorial plane, where the derivative of the cross term in colatitude is wrong; proved for it in the equatorial plane and for the other metrics everywhere."},
 {"property": "C63", "status": "proved", "theorems": ["Gyoto.KerrBL.nBeta_ok"], "note": ""},
 {"property": "C64", "status": "partial", "theorems": ["Gyoto.Static.rn_stop_partial", "Gyoto.Static.rn_stop_wrong"], "note": "Violated for the charge 1 (treated as without horizon) and for charges below -1 (the comparison is with NaN and no geodesic is ever stopped); proved for charges in [-1,1)."},
 {"property": "C65", "status": "partial", "theorems": ["Gyoto.Static.RZ.copy_partial", "Gyoto.Static.RZ.copy_wrong", "Gyoto.Static.RZ.setParam_spec"], "note": "Violated: the copy's marginally bound radius is the original's marginally stable radius; everything else is copied."},
 {"property": "C66", "status": "proved", "theorems": ["Gyoto.KerrBL.diff_stop_iff", "Gyoto.KerrBL.diff_ok_iff", "Gyoto.KerrBL.diff_hamilton", "Gyoto.KerrBL.hamilton_x", "Gyoto.KerrBL.hamiltonian_curve", "Gyoto.KerrBL.diff_energy", "Gyoto.KerrBL.carter_curve", "Gyoto.KerrBL.diff_conserved"], "note": "Right-hand side of the Kerr-specific integrator (not generic, not 3+1) in exact arithmetic."},
 {"property": "C67", "status": "proved", "theorems": ["Gyoto.KerrBL.momentum_lower", "Gyoto.KerrBL.coord_raise", "Gyoto.KerrBL.coord_momentum", "Gyoto.KerrBL.momentum_coord", "Gyoto.KerrBL.cst_coord", "Gyoto.KerrBL.computeCst_spec", "Gyoto.KerrBL.diff_coord"], "note": "At regular points of the coordinates (off the axis, the horizon and the singularity)."},
 {"property": "C68", "status": "partial", "theorems": ["Gyoto.KerrBL.normalize_ok", "Gyoto.KerrBL.normalize_id", "Gyoto.KerrBL.normalize_excess", "Gyoto.KerrBL.carter_ok", "Gyoto.KerrBL.carter_negative_wrong", "Gyoto.KerrBL.checkCons_partial"], "note": "Missing: with a negative Carter constant the code never restores it, since |Qtest-Q|*(1/Q) is then negative (carter_negative_wrong); the square root of a negative number when the excess equals the threshold exactly (normalize_excess)."},
 {"property": "C69", "status": "partial", "theorems": ["Gyoto.Orbits.kerr_circular", "Gyoto.Orbits.kerr_rotating", "Gyoto.Orbits.sh_circular", "Gyoto.Orbits.rn_circular", "Gyoto.Orbits.rn_throw", "Gyoto.Orbits.rz_circular_partial", "Gyoto.Orbits.rz_dir_wrong", "Gyoto.Orbits.rz_off_plane_wrong"], "note": "Missing: RezzollaZhidenko ignores the direction (rz_dir_wrong) and normalises at the projected point out of the equatorial plane (rz_off_plane_wrong). The Keplerian option of KerrBL is that of the generic metric (C45)."},
 {"property": "C70", "status": "proved", "theorems": ["Gyoto.Orbits.kerr_l", "Gyoto.Orbits.kerr_potential", "Gyoto.Orbits.rn_l", "Gyoto.Orbits.rn_potential", "Gyoto.Orbits.rz_l", "Gyoto.Orbits.rz_potential", "Gyoto.Orbits.kerr_zamo"], "note": "Exact arithmetic; for KerrBL the angular momentum is that of the orbits with dir = 1."},
 {"property": "C71", "status": "partial", "theorems": ["Gyoto.Orbits.rms_spec", "Gyoto.Orbits.rms_stationary", "Gyoto.Orbits.rmb_energy", "Gyoto.Orbits.rms_even", "Gyoto.Orbits.rmb_negative_wrong"], "note": "Missing: with a negative spin getRmb is the retrograde radius while getRms is the prograde one (rmb_negative_wrong)."},
 {"property": "C72", "status": "proved", "theorems": ["Gyoto.KerrBL.tetrad_orthonormal"], "note": ""},
 {"property": "C73", "status": "proved", "theorems": ["Gyoto.KerrBL.diff31_geodesic", "Gyoto.KerrBL.diff31_christoffel", "Gyoto.KerrBL.diff31_converts"], "note": ""},
 {"property": "C74", "status": "proved", "theorems": ["Gyoto.GenericMotion.connection_ok", "Gyoto.GenericMotion.transport_product", "Gyoto.GenericMotion.transport_constant", "Gyoto.GenericMotion.transport_equation", "Gyoto.GenericMotion.kerr_transport"], "note": "The Christoffel symbols enter through their defining equation; kerr_transport instantiates the law for KerrBL's own symbols."},
 {"property": "C75", "status": "proved", "theorems": ["Gyoto.GenericMotion.rk4_local_error", "Gyoto.GenericMotion.rk4_geodesic", "Gyoto.GenericMotion.rk4_invariant", "Gyoto.GenericMotion.rk4_outcome", "Gyoto.GenericMotion.rk4_rest"], "note": "Real arithmetic: rounding is not modelled."},
 {"property": "C76", "status": "partial", "theorems": ["Gyoto.GenericMotion.adaptive_ok", "Gyoto.GenericMotion.adaptive_terminates", "Gyoto.GenericMotion.adaptive_order"], "note": "adaptive_ok and adaptive_terminates hold for the left-to-right order; adaptive_order shows that with the other order the language allows, the generic equations of motion are never integrated."},
 {"property": "C77", "status": "partial", "theorems": ["Gyoto.KerrBL.internal_error", "Gyoto.KerrBL.public_error", "Gyoto.KerrBL.rk4_constants", "Gyoto.KerrBL.public_constants", "Gyoto.KerrBL.public_refuses", "Gyoto.KerrBL.internal_refuses", "Gyoto.KerrBL.internal_code", "Gyoto.KerrBL.axis_missed"], "note": "axis_missed: for polar angles below -pi/2 the test for the axis is wrong (the sources say so for the adaptive integrator); everything else is proved."},
 {"property": "C78", "status": "partial", "theorems": ["Gyoto.KerrBL.adaptive_ok", "Gyoto.KerrBL.adaptive_terminates"], "note": "The branch generic_integrator_ == false; the unset buffer that is read after CheckCons returned 1 is left out, it has no effect on the result; doubles are reals."},
 {"property": "C79", "status": "partial", "theorems": ["Gyoto.KerrKS.regular_iff", "Gyoto.KerrKS.radius_spec", "Gyoto.KerrKS.radius_lt", "Gyoto.KerrKS.stop_iff", "Gyoto.KerrKS.gmunu_symm", "Gyoto.KerrKS.coef_eq", "Gyoto.KerrKS.up_inverse", "Gyoto.KerrKS.jacobian_ok", "Gyoto.KerrKS.christoffel_ok", "Gyoto.KerrKS.circle_geodesic_iff", "Gyoto.KerrKS.circular_velocity", "Gyoto.KerrKS.circular_partial", "Gyoto.KerrKS.circular_wrong"], "note": "All but the circular velocity hold for any spin. circularVelocity leaves the spin out of Kepler's law: circular_partial is for spin 0, circular_wrong refutes spin 1/2 at radius 4, and circular_velocity tells for which spins the circle is a geodesic. With a spin above 1 the integration is never stopped (stop_iff)."},
 {"property": "C80", "status": "proved", "theorems": ["Gyoto.KerrKS.same_metric"], "note": "The primitives of 2r/Delta and a/Delta are arguments of the change of coordinates, characterised by their derivatives; an example gives them for spin 1."},
 {"property": "C81", "status": "partial", "theorems": ["Gyoto.Hayward.gmunu_fun", "Gyoto.Hayward.coef_eq", "Gyoto.Hayward.up_inverse", "Gyoto.Hayward.christoffel_ok", "Gyoto.Hayward.up_coef_partial", "Gyoto.Hayward.up_coef_wrong"], "note": "The component (0,3) of gmunu_up asked alone has the wrong sign of the charge terms for r<0 (up_coef_wrong gives a witness and shows that it is no inverse); up_coef_partial covers r>=0. The rest holds in full, with the derivative of the mass function at r=0 included. gmunu_fun also equates the values Lean gives to divisions by zero; where these happen is excluded in the other theorems."},
 {"property": "C82", "status": "proved", "theorems": ["Gyoto.Hayward.circular_ok", "Gyoto.Hayward.angularMomentum_ok", "Gyoto.Hayward.potential_ok", "Gyoto.Hayward.scalarProd_ok"], "note": "The radii where (r^3+2b^2)^2 = a^2(r^3-4b^2) are excluded: there the code divides zero by zero."},
 {"property": "C83", "status": "partial", "theorems": ["Gyoto.ChernSimons.metric_order", "Gyoto.ChernSimons.coef_eq", "Gyoto.ChernSimons.up_ok", "Gyoto.ChernSimons.circular_ok", "Gyoto.ChernSimons.dir_ignored", "Gyoto.ChernSimons.dir_wrong"], "note": "circularVelocity ignores the sense of rotation asked: dir_ignored and dir_wrong (asked to rotate backwards, the particle rotates forwards). circular_ok gives the rest for the orbit that rotates with the hole. The inverse is refused where g_tt vanishes (Matrix4CircularInvert divides by it)."},
 {"property": "C84", "status": "partial", "theorems": ["Gyoto.ChernSimons.diff_first", "Gyoto.ChernSimons.diff_second_partial", "Gyoto.ChernSimons.date_wrong", "Gyoto.ChernSimons.azimuth_wrong", "Gyoto.ChernSimons.motion_exists", "Gyoto.ChernSimons.diff_stop"], "note": "First order: proved. Second order: proved for the momenta, the radius and the polar angle (diff_second_partial); false for the date and the azimuth (date_wrong, azimuth_wrong): cos^2(theta)-1/ff stands where cos^2(theta)+1/ff is needed, as it is in prdot, so the error is of the second order in the spin at every position."},
 {"property": "C85", "status": "partial", "theorems": ["Gyoto.PatternDisk.step_ok", "Gyoto.PatternDisk.reachable_ok", "Gyoto.PatternDisk.step_dr_partial", "Gyoto.PatternDisk.step_dr_wrong", "Gyoto.PatternDisk.clone_partial", "Gyoto.PatternDisk.clone_wrong", "Gyoto.PatternDisk.emission_line_partial", "Gyoto.PatternDisk.emission_inner_partial", "Gyoto.PatternDisk.emission_seam_partial", "Gyoto.PatternDisk.transmission_inner_partial", "Gyoto.PatternDisk.transmission_line_partial", "Gyoto.PatternDisk.emission_absorb", "Gyoto.PatternDisk.velocity_inner_partial", "Gyoto.PatternDisk.emission_below_grid_wrong", "Gyoto.PatternDisk.emission_above_grid_wrong", "Gyoto.PatternDisk.transmission_seam_wrong", "Gyoto.PatternDisk.phimax_wrong", "Gyoto.PatternDisk.repeat_below_wrong", "Gyoto.PatternDisk.uniform_below_wrong", "Gyoto.PatternDisk.frequency_wrong", "Gyoto.PatternDisk.rotation_wrong", "Gyoto.PatternDisk.velocity_line_partial"], "note": "The sizes of the arrays are proved for every sequence of calls. The interpolation is proved inside the grid without rotation. Violated: copies of disks with a grid of radii read beyond it (clone_wrong); at the first and last circle of a grid of radii elements outside of the arrays are read; the opacity beyond the last column; the azimuth of the last column throws; repeated patterns before phimin; far inside a uniform grid and for frequencies beyond 2^64 steps the conversion of the index is undefined; a turning pattern throws (rotation_wrong)."},
 {"property": "C86", "status": "partial", "theorems": ["Gyoto.Disk3D.step_partial", "Gyoto.Disk3D.reachable_partial", "Gyoto.Disk3D.clone_partial", "Gyoto.Disk3D.opacity_wrong", "Gyoto.Disk3D.indices_partial", "Gyoto.Disk3D.rates_ok", "Gyoto.Disk3D.spherical_ok", "Gyoto.Disk3D.turns", "Gyoto.Disk3D.repeat_wrong", "Gyoto.Disk3D.phimax_wrong", "Gyoto.Disk3D.gap_wrong"], "note": "Proved for the emission and the velocities, without repetition; the opacity keeps its size when the dimensions change (opacity_wrong), a repeated pattern is not repeated (repeat_wrong), limits in azimuth set after the array leave the step as it was (phimax_wrong), and points between a grid above the equatorial plane and its mirror image count as inside but have no index (gap_wrong)."},
 {"property": "C87", "status": "proved", "theorems": ["Gyoto.Disk3D.impact_ok", "Gyoto.Disk3D.impact_zero_iff", "Gyoto.Disk3D.impact_path", "Gyoto.Disk3D.impact_short_wrong"], "note": "The walk is proved as stated; as a consequence segments of 0.1 and less are never met even inside the grid (impact_short_wrong), and the first point found inside is skipped."},
 {"property": "C88", "status": "partial", "theorems": ["Gyoto.DirectionalDisk.step_ok", "Gyoto.DirectionalDisk.reachable_ok", "Gyoto.DirectionalDisk.clone_ok", "Gyoto.DirectionalDisk.cutoffs_wrong", "Gyoto.DirectionalDisk.outside_partial", "Gyoto.DirectionalDisk.inside_ok", "Gyoto.DirectionalDisk.freq_wrong", "Gyoto.DirectionalDisk.cosine_ok", "Gyoto.DirectionalDisk.lampShift_ok", "Gyoto.DirectionalDisk.emission_ok", "Gyoto.DirectionalDisk.emission_wrong", "Gyoto.DirectionalDisk.trapezeMean_mem", "Gyoto.DirectionalDisk.trapezeMean_linear"], "note": "Proved for frequencies up to the highest of the grid; above it the search runs out of the array (freq_wrong), which a disk filled without a file reaches (emission_wrong); the cut-offs are read back in hertz (cutoffs_wrong)."},
 {"property": "C89", "status": "proved", "theorems": ["Gyoto.PatternDisk.copyIntensity_holds", "Gyoto.PatternDisk.copyOpacity_holds", "Gyoto.PatternDisk.copyVelocity_holds", "Gyoto.PatternDisk.copyGridRadius_holds", "Gyoto.PatternDisk.copyNull", "Gyoto.PatternDisk.setter_ok", "Gyoto.PatternDisk.freqIndex_nearest", "Gyoto.Disk3D.copyEmissquant_holds", "Gyoto.Disk3D.copyOpacity_holds", "Gyoto.Disk3D.copyVelocity_holds", "Gyoto.Disk3D.copyNull", "Gyoto.Disk3D.setter_ok", "Gyoto.Disk3D.freqIndex_nearest", "Gyoto.DirectionalDisk.copyIntensity_holds", "Gyoto.DirectionalDisk.copyGrid_holds", "Gyoto.DirectionalDisk.copyNull", "Gyoto.DirectionalDisk.refused"], "note": "Arrays of the caller at least as long as announced (otherwise undefined behaviour, C85-C88)."},
 {"property": "C90", "status": "partial", "theorems": ["Gyoto.DynDisk.life_partial", "Gyoto.DynDisk.calls_proper", "Gyoto.DynDisk.unused_no_leak", "Gyoto.DynDisk.file_refused", "Gyoto.DynDisk.used_leak_wrong", "Gyoto.DynDisk.emission_throw_wrong", "Gyoto.DynDisk.file_throw_wrong", "Gyoto.DynDisk.file_incomplete_wrong", "Gyoto.DynDisk.clone_wrong", "Gyoto.DynDisk.clone_fresh_wrong"], "note": "Proved for all sequences of calls in which nothing throws (no undefined behaviour, and no leak if the disk is not used); refuted by the code otherwise: after any exception of the base or of the reading of a file the destructor is undefined, three arrays leak at the first use, clones have no data and cloning a disk just read reads beyond an array."},
 {"property": "C91", "status": "partial", "theorems": ["Gyoto.DynDisk.emission_inTime_partial", "Gyoto.DynDisk.calls_proper", "Gyoto.DynDisk.emission_last_wrong", "Gyoto.DynDisk.index_rejected"], "note": "Proved for every date but those strictly between the last two, where the code returns the last file alone: proved for every disk of two files or more."},
 {"property": "C92", "status": "partial", "theorems": ["Gyoto.Functors.ridders_ok", "Gyoto.Functors.ridders_root", "Gyoto.Functors.ridders_unbracketed_wrong", "Gyoto.Functors.secant_status", "Gyoto.Functors.secant_affine", "Gyoto.Functors.secant_jump_wrong", "Gyoto.Functors.secant_equal_wrong", "Gyoto.Functors.secant_failed"], "note": "ridders: proved in exact arithmetic, from a bracket, for every function (the bracket at least halves at each turn), with a root within the tolerance when the function is continuous; without a bracket a NaN is possible and nothing reports it. secant: status 0 means a small value or two close points, which is not convergence to a root (jump), and two points with equal values divide by zero before status is set."},
 {"property": "C93", "status": "partial", "theorems": ["Gyoto.Spectra.integrate_iff", "Gyoto.Spectra.integrate_mono", "Gyoto.Spectra.integrate_swap", "Gyoto.Spectra.integrate_ends", "Gyoto.Spectra.integrate_accurate", "Gyoto.Spectra.integrate_power_law", "Gyoto.Spectra.integrate_negative_wrong", "Gyoto.Spectra.integrate_line_wrong"], "note": "Proved: the value is the rule of the trapezoids for the first doubling that changes the sum by at most 1%; the loop ends for every continuous spectrum that is nowhere negative; the value is the integral to 1% for every spectrum convex or concave over the band, hence for every power law. False in general: a spectrum null at the two ends and the middle gives 0, a negative one never ends."},
 {"property": "C94", "status": "partial", "theorems": ["Gyoto.USphere.ray_thin", "Gyoto.USphere.ray_opaque", "Gyoto.USphere.ray_range", "Gyoto.USphere.opacity_total", "Gyoto.USphere.isotropic_cut_wrong", "Gyoto.USphere.radius_values", "Gyoto.USphere.value_inside", "Gyoto.USphere.harmonic_partial", "Gyoto.USphere.harmonic_wrong", "Gyoto.USphere.deltaMax_least", "Gyoto.USphere.deltaMax_far"], "note": "Proved for thin and opaque spheres and all metrics but SchwarzschildHarmonic, for which it holds when the star has a positive x (atan in place of atan2: harmonic_wrong). An isotropic sphere that is optically thin gives a result that depends on the cut (isotropic_cut_wrong)."},
 {"property": "C95", "status": "partial", "theorems": ["Gyoto.SpectrumKinds.power_law_partial", "Gyoto.SpectrumKinds.power_law_value", "Gyoto.SpectrumKinds.cutoff_ordered", "Gyoto.SpectrumKinds.cutoff_unit_short_wrong", "Gyoto.SpectrumKinds.cutoff_unit_long_wrong", "Gyoto.SpectrumKinds.black_body_plain_partial", "Gyoto.SpectrumKinds.black_body_color_partial", "Gyoto.SpectrumKinds.color_twice_wrong", "Gyoto.SpectrumKinds.color_readback_wrong", "Gyoto.SpectrumKinds.color_order_wrong", "Gyoto.SpectrumKinds.reload_wrong", "Gyoto.SpectrumKinds.reload_plain_partial"], "note": "Power law: proved except that with a unit a vector of cut-offs that is too short is read past its end and one that is too long is accepted. Black body: proved without colour correction, or with one set once after the temperature; otherwise the corrections pile up in the temperature, which is not read back, and a file that is read again applies it twice."},
 {"property": "C96", "status": "partial", "theorems": ["Gyoto.Derived.shift_value", "Gyoto.Derived.shift_stop", "Gyoto.Derived.shift_shift", "Gyoto.Derived.shift_zero", "Gyoto.Derived.shift_derivative", "Gyoto.Derived.shift_connection", "Gyoto.Derived.shift_motion", "Gyoto.Derived.offset_iff", "Gyoto.Derived.complex_sum", "Gyoto.Derived.complex_derivative", "Gyoto.Derived.complex_connection", "Gyoto.Derived.complex_stop", "Gyoto.Derived.remove_ok", "Gyoto.Derived.append_ok", "Gyoto.Derived.complex_kinds", "Gyoto.Derived.append_null_wrong", "Gyoto.Derived.shift_safe", "Gyoto.Derived.shift_hooked", "Gyoto.Derived.shift_mass_partial", "Gyoto.Derived.shift_set_partial", "Gyoto.Derived.clone_mass_wrong"], "note": "Translation of tensors, symbols, motion and stop; sums; lists. The mass of a Shift is that of its sub-metric unless it is a clone: a clone shares the sub-metric and is not hooked to it. Appending null to an empty Complex throws but leaves a null element."},
 {"property": "C97", "status": "partial", "theorems": ["Gyoto.Extent.torus_distance", "Gyoto.Extent.torus_asked_partial", "Gyoto.Extent.torus_stale_wrong", "Gyoto.Extent.torus_deltaMax", "Gyoto.Extent.torus_small", "Gyoto.Extent.torus_velocity", "Gyoto.Extent.fixed_asked_partial", "Gyoto.Extent.fixed_stale_wrong", "Gyoto.Extent.star_spherical_partial", "Gyoto.Extent.star_cartesian_partial", "Gyoto.Extent.star_negative_wrong", "Gyoto.Extent.star_stale_wrong"], "note": "rMax() is computed once and kept: setting a radius or a position afterwards, or following the orbit of a star farther, leaves it too small. Star::rMax in Cartesian coordinates takes the largest signed coordinate: negative when all are."},
 {"property": "C98", "status": "partial", "theorems": ["Gyoto.PageThorne.flux_conserved_partial", "Gyoto.PageThorne.flux_positive_partial", "Gyoto.PageThorne.place_agree", "Gyoto.PageThorne.intensity_partial", "Gyoto.PageThorne.scale_wrong", "Gyoto.PageThorne.temperature_wrong", "Gyoto.PageThorne.edge_marginal_partial", "Gyoto.PageThorne.edge_retrograde_wrong", "Gyoto.PageThorne.negative_spin_wrong", "Gyoto.PageThorne.follows_metric_partial", "Gyoto.PageThorne.refused_wrong", "Gyoto.PageThorne.inner_radius_wrong", "Gyoto.PageThorne.spectrum_wrong", "Gyoto.PageThorne.bolometric_hit", "Gyoto.PageThorne.thin_path"], "note": "For spins 0 <= a < 1 the closed form is proved equal to the integral of Page and Thorne, zero at the marginally stable orbit and positive beyond. Refuted: matter that turns against the black hole (the inner edge is the wrong one and the intensity negative or NaN somewhere); the scale when the mass or the accretion rate is 1; the temperature (SI value used as cgs); a refused metric; the inner radius after a change of spin; the spectrum without parallel transport."},
 {"property": "C99", "status": "partial", "theorems": ["Gyoto.KRZ.kerr_limit", "Gyoto.KRZ.horizon_at_r0", "Gyoto.KRZ.reached_coherent", "Gyoto.KRZ.up_inverse", "Gyoto.KRZ.connection_iff", "Gyoto.KRZ.connection_wrong", "Gyoto.KRZ.up_derivs", "Gyoto.KRZ.circular_partial", "Gyoto.KRZ.retrograde_wrong", "Gyoto.KRZ.off_plane_wrong", "Gyoto.KRZ.set_ok_partial", "Gyoto.KRZ.refused_kept_wrong", "Gyoto.KRZ.clone_wrong", "Gyoto.KRZ.spin_after_wrong"], "note": "Kerr limit, horizon and inverse hold for all parameters. The connection is right exactly when the third asymptotic parameter is zero. Circular orbits are right in the equatorial plane for direct motion only: the direction is ignored, and off the plane the norm is not -1. Refused values stay, ranges are not checked again when the spin changes, and clones have a wrong third power of the spin."}
]}
