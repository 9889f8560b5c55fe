{"claims": [
 {"property": "C01", "status": "proved", "theorems": ["Principia.Base32768.C01_round_trip", "Principia.Base32768.C01_round_trip_null_terminated", "Principia.Base32768.C01_injective"], "note": ""},
 {"property": "C02", "status": "proved", "theorems": ["Principia.Base32768.C02_encode", "Principia.Base32768.C02_decodedLength"], "note": ""},
 {"property": "C03", "status": "proved", "theorems": ["Principia.Hexadecimal.C03_encode", "Principia.Hexadecimal.C03_encode_null_terminated", "Principia.Hexadecimal.C03_encode_accepts", "Principia.Hexadecimal.C03_terminator_counterexample", "Principia.Hexadecimal.C03_decode", "Principia.Hexadecimal.C03_round_trip"], "note": "C03_terminator_counterexample: outside the layouts of the property, the null-terminated encoder accepts an input placed right after the last digit and corrupts it."},
 {"property": "C04", "status": "proved", "theorems": ["Principia.Mod.C04_mod", "Principia.Mod.C04_mod_small_divisor", "Principia.Mod.C04_mod_offset", "Principia.Mod.C04_mod_overflow_counterexample"], "note": "The statement is restricted to representable intermediate results; C04_mod_overflow_counterexample shows that the restriction is needed, C04_mod_small_divisor gives a simple sufficient condition."},
 {"property": "C05", "status": "proved", "theorems": ["Principia.Bits.C05_bitReversedIncrement", "Principia.Bits.C05_enumeration", "Principia.Bits.C05_floorLog2", "Principia.Bits.C05_powerOf2Le"], "note": ""},
 {"property": "C06", "status": "proved", "theorems": ["Principia.Fingerprint.C06_fingerprintCat", "Principia.Fingerprint.C06_fingerprint"], "note": ""},
 {"property": "C07", "status": "proved", "theorems": ["Principia.DisjointSets.C07_connectivity", "Principia.DisjointSets.C07_queries_are_pure", "Principia.DisjointSets.C07_makeSingleton"], "note": ""},
 {"property": "C08", "status": "proved", "theorems": ["Principia.PileUps.C08_pile_ups_are_components"], "note": ""},
 {"property": "C09", "status": "partial", "theorems": ["Principia.Bundle.C09_join", "Principia.Bundle.C09_no_deadlock", "Principia.Bundle.C09_notify_once_partial", "Principia.Bundle.C09_notify_once_counterexample"], "note": "The property's 'exactly one notification' part is false: C09_notify_once_counterexample gives a schedule with two calls to Notify (a worker decrements, the client counts, another worker decrements...); C09_notify_once_partial proves it under the condition named in the theorem. JoinWithin replaces an earlier task error by DeadlineExceeded (part of C09_join)."},
 {"property": "C10", "status": "proved", "theorems": ["Principia.ThreadPool.C10_order", "Principia.ThreadPool.C10_add", "Principia.ThreadPool.C10_tryAdd", "Principia.ThreadPool.C10_progress", "Principia.ThreadPool.C10_termination", "Principia.ThreadPool.C10_shutdown_drops_calls"], "note": ""},
 {"property": "C11", "status": "proved", "theorems": ["Principia.PullSerializer.C11_stream", "Principia.PullSerializer.C11_bytes", "Principia.PullSerializer.C11_array_is_stable", "Principia.PullSerializer.C11_no_deadlock", "Principia.PullSerializer.C11_termination", "Principia.PullSerializer.C11_last_chunk_lost_counterexample"], "note": "Proved for serializations that end with BackUp (Flushed); C11_last_chunk_lost_counterexample shows that the condition is necessary."},
 {"property": "C12", "status": "proved", "theorems": ["Principia.PushDeserializer.C12_stream", "Principia.PushDeserializer.C12_end", "Principia.PushDeserializer.C12_no_deadlock", "Principia.PushDeserializer.C12_skip", "Principia.SerializationRoundTrip.C12_round_trip"], "note": ""},
 {"property": "C13", "status": "proved", "theorems": ["Principia.PushPull.C13_calls", "Principia.PushPull.C13_result", "Principia.PushPull.C13_no_deadlock", "Principia.PushPull.C13_termination"], "note": ""},
 {"property": "C14", "status": "proved", "theorems": ["Principia.RecurringThread.C14_order", "Principia.RecurringThread.C14_published", "Principia.RecurringThread.C14_last_input_processed", "Principia.RecurringThread.C14_stop_loses_input_counterexample"], "note": "C14_stop_loses_input_counterexample: the last input is processed if the thread is not stopped; an input taken by the thread when Stop is called is lost."},
 {"property": "C15", "status": "proved", "theorems": ["Principia.Checkpointer.C15_queries", "Principia.Checkpointer.C15_readers", "Principia.Checkpointer.C15_write", "Principia.Checkpointer.C15_write_if_needed", "Principia.Checkpointer.C15_round_trip"], "note": ""},
 {"property": "C16", "status": "partial", "theorems": ["Principia.Protector.C16_exactly_once", "Principia.Protector.C16_as_soon_as_unprotected", "Principia.Protector.C16_result", "Principia.Protector.C16_unprotect", "Principia.Protector.C16_never_run_protected_partial", "Principia.Protector.C16_race_counterexample"], "note": "'Never while protected' holds when no conflicting Protect is called between the release of the callback and its run (C16_never_run_protected_partial); C16_race_counterexample shows that the condition is necessary because callbacks run without the lock."},
 {"property": "C17", "status": "proved", "theorems": ["Principia.Clientele.C17_first", "Principia.Clientele.C17_check", "Principia.Clientele.C17_raii", "Principia.Monostable.C17_monostable"], "note": ""},
 {"property": "C18", "status": "proved", "theorems": ["Principia.DiscreteTrajectory.C18_history", "Principia.DiscreteTrajectory.C18_progress"], "note": ""},
 {"property": "C19", "status": "proved", "theorems": ["Principia.DiscreteTrajectory.C19_find", "Principia.DiscreteTrajectory.C19_lower_bound", "Principia.DiscreteTrajectory.C19_upper_bound", "Principia.DiscreteTrajectory.C19_front_back"], "note": ""},
 {"property": "C20", "status": "partial", "theorems": ["Principia.DiscreteTrajectory.C20_forget_after", "Principia.DiscreteTrajectory.C20_forget_before_partial", "Principia.DiscreteTrajectory.C20_append", "Principia.DiscreteTrajectory.C20_forget_before_counterexample", "Principia.DiscreteTrajectory.C20_forget_after_counterexample"], "note": "ForgetBefore(t) crashes when the first point at or after t is strictly after t and starts a segment although there are points before t (C20_forget_before_counterexample); C20_forget_before_partial proves that this is exactly when it crashes, and that otherwise it removes exactly the points before t."},
 {"property": "C21", "status": "partial", "theorems": ["Principia.DiscreteTrajectory.C21_points", "Principia.DiscreteTrajectory.C21_increment_decrement", "Principia.DiscreteTrajectory.C21_random_access", "Principia.DiscreteTrajectory.C21_compare_and_difference_partial", "Principia.DiscreteTrajectory.C21_segment_range", "Principia.DiscreteTrajectory.C21_difference_counterexample"], "note": "The difference of two iterators is the difference of the ranks when it is nonnegative; otherwise it crashes (C21_difference_counterexample), which is the missing part of C21_compare_and_difference_partial."},
 {"property": "C22", "status": "proved", "theorems": ["Principia.DiscreteTrajectory.C22_detach", "Principia.DiscreteTrajectory.C22_attach", "Principia.DiscreteTrajectory.C22_round_trip"], "note": "C22_attach gives the exact conditions (Attachable) under which attaching does not crash."},
 {"property": "C23", "status": "proved", "theorems": ["Principia.DiscreteTrajectory.C23_merge", "Principia.DiscreteTrajectory.C23_merge_progress", "Principia.DiscreteTrajectory.C23_segment_merge"], "note": ""},
 {"property": "C24", "status": "proved", "theorems": ["Principia.DiscreteTrajectory.C24_round_trip", "Principia.DiscreteTrajectory.C24_lossless", "Principia.DiscreteTrajectory.C24_empty_range_counterexample"], "note": "The range must be nonempty, or be empty at the end of the trajectory: C24_empty_range_counterexample shows that writing another empty range gives a message that cannot be read. Lossy compression of the degrees of freedom is an arbitrary codec which is close to the original (CodecOk); without downsampling it is exact (C24_lossless)."},
 {"property": "C25", "status": "partial", "theorems": ["Principia.DiscreteTrajectory.C25_downsampling_partial", "Principia.DiscreteTrajectory.C25_append", "Principia.DiscreteTrajectory.C25_merge_counterexample"], "note": "C25_downsampling_partial covers all sequences of Append, Prepend, ForgetAfter, ForgetBefore, SetDownsampling, ClearDownsampling and clear; C25_append is the statement for points appended to a new segment. Merge and deserialization do not restore the accumulated error: C25_merge_counterexample shows that the bound fails afterwards."},
 {"property": "C26", "status": "proved", "theorems": ["Principia.Hermite3.C26_interpolates", "Principia.Hermite3.C26_derivative", "Principia.Hermite3.C26_unique", "Principia.Hermite3.C26_same_point", "Principia.Hermite3.C26_difference", "Principia.Hermite3.C26_sum", "Principia.Hermite3.C26_extrema", "Principia.Hermite3.C26_norm", "Principia.Hermite3.C26_error", "Principia.Hermite3.C26_error_is_within", "Principia.Hermite3.C26_l1_bound_counterexample"], "note": "Exact real arithmetic. C26_norm is for functions that vanish at the lower bound together with their derivative, which is the documented requirement. C26_l1_bound_counterexample: LInfinityL₁NormUpperBound, which is not part of the property, is not an upper bound."},
 {"property": "C27", "status": "proved", "theorems": ["Principia.Calendar.C27_consecutive", "Principia.Calendar.C27_order", "Principia.Calendar.C27_round_trip", "Principia.Calendar.C27_every_day", "Principia.Calendar.C27_next_day", "Principia.Calendar.C27_next_day_proleptic", "Principia.Calendar.C27_anchors", "Principia.Calendar.C27_ordinal", "Principia.Calendar.C27_from_ordinal", "Principia.Calendar.C27_from_ordinal_checks", "Principia.Calendar.C27_from_fields", "Principia.Calendar.C27_week", "Principia.Calendar.C27_mjd", "Principia.Calendar.C27_negative_century_counterexample"], "note": "Holds for the dates of the range Supported, which leaves out the Gregorian dates for which C27_negative_century_counterexample shows that the Julian date is off by one (years that are negative multiples of 100 but not of 400); the floating-point arithmetic is any rounding with relative error 2^-52 that is exact on small multiples of 1/4."},
 {"property": "C28", "status": "partial", "theorems": ["Principia.Calendar.C28_date_partial", "Principia.Calendar.C28_time", "Principia.Calendar.C28_date_valid", "Principia.Calendar.C28_date_time", "Principia.Calendar.C28_end_of_day", "Principia.Calendar.C28_equality", "Principia.Calendar.C28_date_round_trip", "Principia.Calendar.C28_time_round_trip", "Principia.Calendar.C28_date_time_round_trip", "Principia.Calendar.C28_julian_value", "Principia.Calendar.C28_julian_accepts", "Principia.Calendar.C28_spurious_W_counterexample", "Principia.Calendar.C28_negative_ordinal_counterexample", "Principia.Calendar.C28_negative_basic_counterexample", "Principia.Calendar.C28_five_digit_year_counterexample", "Principia.Calendar.C28_empty_julian_counterexample"], "note": "C28_date_partial leaves out the strings with eight digits and a W, which the parser accepts wrongly (C28_spurious_W_counterexample), and documents that a negative sign is only accepted in calendar dates (C28_negative_ordinal_counterexample, C28_negative_basic_counterexample). Times, date-times, Julian dates and the printing round trips are proved in full; C28_five_digit_year_counterexample shows that the range of years is needed."},
 {"property": "C29", "status": "proved", "theorems": ["Principia.Recurrence.C29_constructor", "Principia.Recurrence.C29_subcycle", "Principia.Recurrence.C29_fraction", "Principia.Recurrence.C29_negative_revolutions_counterexample"], "note": "Constructor, subcycle and derived fractions of OrbitRecurrence, for every triple whose cycle fits in an int. The constructor accepts triples whose number of revolutions is negative although the comments say that it is positive (C29_negative_revolutions_counterexample)."},
 {"property": "C30", "status": "partial", "theorems": ["Principia.Recurrence.C30_closest_partial", "Principia.Recurrence.C30_double", "Principia.Recurrence.C30_crash_counterexample", "Principia.Recurrence.C30_no_cycle_counterexample"], "note": "Proved for every κ for which the floating-point operations are exact (C30_double gives a sufficient condition for doubles). Without that hypothesis the statement is false of the code: for the double nearest to 7/5 from above and the 100 days used by the orbit analyser the constructor's CHECK fails (C30_crash_counterexample). With max_abs_Cᴛₒ ≤ 0 an uninitialized variable is used (C30_no_cycle_counterexample)."},
 {"property": "C31", "status": "proved", "theorems": ["Principia.FlightPlan.C31_structure", "Principia.FlightPlan.C31_returned_status"], "note": "For every history of operations, including reading and copies, and every integrator whose steps are increasing and do not go past the requested time. For copies that have an anomaly the status is lost (C34_status_counterexample)."},
 {"property": "C32", "status": "proved", "theorems": ["Principia.FlightPlan.C32_replace_last", "Principia.FlightPlan.C32_insert", "Principia.FlightPlan.C32_replace", "Principia.FlightPlan.C32_final_time", "Principia.FlightPlan.C32_rejected", "Principia.FlightPlan.C32_accepted"], "note": ""},
 {"property": "C33", "status": "partial", "theorems": ["Principia.FlightPlan.C33_remove_counterexample", "Principia.FlightPlan.C33_mass_chain_partial", "Principia.FlightPlan.C33_remove"], "note": "Missing: the removal of a manœuvre that is not the last, after which the next manœuvre keeps its old mass (C33_remove_counterexample; C33_remove says what the masses are)."},
 {"property": "C34", "status": "partial", "theorems": ["Principia.FlightPlan.C34_status_counterexample", "Principia.FlightPlan.C34_analysis_counterexample", "Principia.FlightPlan.C34_copy_partial", "Principia.FlightPlan.C34_fine_partial"], "note": "Missing: the status of an anomalous plan and the analyses, which are not copied (C34_status_counterexample, C34_analysis_counterexample)."},
 {"property": "C35", "status": "proved", "theorems": ["Principia.Geometry.Barycentre.C35_barycentre", "Principia.Geometry.Barycentre.C35_barycentre_vectors", "Principia.Geometry.Barycentre.C35_failure", "Principia.Geometry.Barycentre.C35_weight", "Principia.Geometry.Barycentre.C35_order", "Principia.Geometry.Barycentre.C35_groups", "Principia.Geometry.Barycentre.C35_affine", "Principia.Geometry.Barycentre.C35_mean", "Principia.Geometry.Barycentre.C35_mean_vectors", "Principia.Physics.Hierarchical.C35_hierarchical_unique", "Principia.Physics.Hierarchical.C35_hierarchical_bodies", "Principia.Physics.Hierarchical.C35_add", "Principia.Physics.Hierarchical.C35_hierarchical_success", "Principia.Physics.Hierarchical.C35_hierarchical_failure", "Principia.Physics.Hierarchical.C35_increasing", "Principia.Physics.Hierarchical.C35_insertion_order", "Principia.Physics.Hierarchical.C35_serialization", "Principia.Physics.Hierarchical.C35_hierarchical", "Principia.Physics.Hierarchical.C35_jacobi", "Principia.Physics.Hierarchical.C35_jacobi_unique"], "note": "Exact arithmetic (any field of scalars); the Kepler orbits and std::sort are parameters with their specifications."},
 {"property": "C36", "status": "proved", "theorems": ["Principia.Geometry.Rotation.C36_to_frame_axes", "Principia.Geometry.Rotation.C36_from_frame_axes", "Principia.Geometry.Rotation.C36_matrix_surjective", "Principia.Geometry.Rotation.C36_normalize", "Principia.Geometry.Rotation.C36_angle_axis", "Principia.Geometry.Rotation.C36_defines_frame", "Principia.Geometry.Rotation.C36_euler", "Principia.Geometry.Rotation.C36_conventions", "Principia.Geometry.Rotation.C36_rotation_angle", "Principia.Geometry.Rotation.C36_exp", "Principia.Geometry.Rotation.C36_form", "Principia.Geometry.C36_triples", "Principia.Geometry.C36_quaternions", "Principia.Geometry.Rotation.C36_hamilton", "Principia.Geometry.Rotation.C36_linear", "Principia.Geometry.Rotation.C36_isometry", "Principia.Geometry.Rotation.C36_cross", "Principia.Geometry.Rotation.C36_orientation", "Principia.Geometry.Rotation.C36_compose", "Principia.Geometry.Rotation.C36_inverse"], "note": "Exact real arithmetic; NaNs (rotation around a null axis) are modelled by none."},
 {"property": "C37", "status": "partial", "theorems": ["Principia.Geometry.Permutation.C37_permutation", "Principia.Geometry.Permutation.C37_permutation_sign", "Principia.Geometry.Permutation.C37_permutation_complete", "Principia.Geometry.Permutation.C37_permutation_compose", "Principia.Geometry.Permutation.C37_permutation_inverse", "Principia.Geometry.Permutation.C37_permutation_forget", "Principia.Geometry.C37_permutation_counterexample", "Principia.Geometry.C37_angle_between", "Principia.Geometry.C37_oriented_angle_between", "Principia.Geometry.C37_orthogonal_form", "Principia.Geometry.C37_homothecy", "Principia.Geometry.C37_conformal_map", "Principia.Geometry.C37_conformal_compose", "Principia.Geometry.C37_conformal_inverse", "Principia.Geometry.C37_conformal_determinant_partial", "Principia.Geometry.C37_conformal_determinant_counterexample", "Principia.Geometry.C37_orthogonal_forget", "Principia.Geometry.C37_rigid_transformation", "Principia.Geometry.C37_rigid_compose", "Principia.Geometry.C37_similarity", "Principia.Geometry.C37_similarity_compose", "Principia.Geometry.C37_multivectors", "Principia.Geometry.C37_rotation", "Principia.Geometry.C37_orthogonal_map", "Principia.Geometry.C37_orthogonal_compose", "Principia.Geometry.C37_orthogonal_inverse", "Principia.Geometry.C37_signature_make", "Principia.Geometry.C37_signature", "Principia.Geometry.C37_signature_compose", "Principia.Geometry.C37_signature_forget", "Principia.Geometry.C37_signature_form", "Principia.Geometry.C37_signature_serialization"], "note": "Exact real arithmetic. Missing: ConformalMap::Determinant has the wrong sign when the map changes the handedness (C37_conformal_determinant_counterexample; C37_conformal_determinant_partial covers the other maps), and permutations read from a message are not validated (C37_permutation_counterexample)."},
 {"property": "C38", "status": "proved", "theorems": ["Principia.Polynomial.C38_evaluate", "Principia.Polynomial.C38_evaluate_with_derivative", "Principia.Polynomial.C38_raise_degree", "Principia.Polynomial.C38_neg", "Principia.Polynomial.C38_scalar", "Principia.Polynomial.C38_sum", "Principia.Polynomial.C38_difference", "Principia.Polynomial.C38_product", "Principia.Polynomial.C38_constant", "Principia.Polynomial.C38_composition", "Principia.Polynomial.C38_at_origin", "Principia.Polynomial.C38_evaluate_derivative", "Principia.Polynomial.C38_derivative", "Principia.Polynomial.C38_primitive"], "note": "Exact arithmetic over a commutative ring (a field for primitives, the reals for derivatives)."},
 {"property": "C39", "status": "proved", "theorems": ["Principia.Numerics.Chebyshev.C39_value", "Principia.Numerics.Chebyshev.C39_derivative_counterexample", "Principia.Numerics.Chebyshev.C39_derivative", "Principia.Numerics.Chebyshev.C39_may_have_real_roots", "Principia.Numerics.Chebyshev.C39_companion", "Principia.Numerics.Chebyshev.C39_real_roots", "Principia.Numerics.Chebyshev.C39_real_roots_counterexample"], "note": "Exact arithmetic; the real Schur decomposition is a parameter. The derivative in degree 0 and the real roots in degree 1 are wrong in the code: C39_derivative_counterexample, C39_real_roots_counterexample. Serialization not modelled."},
 {"property": "C40", "status": "proved", "theorems": ["Principia.Numerics.Fourier.C40_dft", "Principia.Numerics.Fourier.C40_size", "Principia.Numerics.Fourier.C40_power_spectrum", "Principia.Numerics.Fourier.C40_symmetry", "Principia.Numerics.Fourier.C40_mode", "Principia.Numerics.Fourier.C40_mode_counterexample"], "note": "Exact arithmetic, all sizes 2^n with n < 32. Also the power spectrum, its symmetry, and the mode, which uses a past-the-end iterator for sizes 1 and 2: C40_mode_counterexample."},
 {"property": "C41", "status": "proved", "theorems": ["Principia.RootFinders.C41_brent_minimum_terminates", "Principia.RootFinders.C41_brent_minimum", "Principia.RootFinders.C41_brent_maximum", "Principia.RootFinders.C41_brent_minimum_unimodal", "Principia.RootFinders.C41_double_brent", "Principia.RootFinders.C41_double_brent_counterexample", "Principia.RootFinders.C41_golden_section", "Principia.RootFinders.C41_brent_sign", "Principia.RootFinders.C41_brent", "Principia.RootFinders.C41_brent_terminates", "Principia.RootFinders.C41_quadratic", "Principia.RootFinders.C41_quadratic_constant", "Principia.RootFinders.C41_bisect", "Principia.RootFinders.C41_bisect_check"], "note": "Exact arithmetic on the reals extended with infinities and NaNs for the quadratic solver; Bisect over any linear order with finite intervals (the floating-point numbers). Brent, DoubleBrent and the golden section search on the reals: the termination of DoubleBrent, and that of Brent's zero finder on an interval that contains 0, are not claimed; the stopping criterion of the golden section search, which compares floating-point numbers for equality, is replaced by a number of iterations."},
 {"property": "C42", "status": "proved", "theorems": ["Principia.Numerics.NearestNeighbour.C42_nearest_neighbour", "Principia.Numerics.NearestNeighbour.C42_indices", "Principia.Numerics.NearestNeighbour.C42_empty_cells_counterexample"], "note": "Exact real arithmetic and values that do not change after being added; std::nth_element is any function that meets its specification. At least one value per cell: with max_values_per_cell = 0 the construction does not terminate (C42_empty_cells_counterexample)."},
 {"property": "C43", "status": "proved", "theorems": ["Principia.Quantities.C43_units", "Principia.Quantities.C43_sums", "Principia.Quantities.C43_opposite", "Principia.Quantities.C43_group", "Principia.Quantities.C43_roots", "Principia.Quantities.C43_serialization", "Principia.Quantities.C43_ambiguity"], "note": "Run-time counterpart of the compile-time dimensions; magnitudes are elements of a field."},
 {"property": "C44", "status": "proved", "theorems": ["Principia.Integrators.C44_symplectic_times", "Principia.Integrators.C44_runge_kutta_times", "Principia.Integrators.C44_symplectic_check", "Principia.Integrators.C44_zero_step_counterexample", "Principia.Integrators.C44_symplectic_restart", "Principia.Integrators.C44_runge_kutta_restart", "Principia.Integrators.C44_symmetric_multistep_times", "Principia.Integrators.C44_explicit_multistep_times", "Principia.Integrators.C44_symmetric_multistep_restart", "Principia.Integrators.C44_explicit_multistep_restart", "Principia.Integrators.C44_negative_step_counterexample"], "note": "Symplectic Runge-Kutta-Nyström, explicit Runge-Kutta, symmetric and explicit linear multistep integrators with their starter, in exact arithmetic.  The theorems on times hold for any right-hand side, any errors it returns and any schedule of stop requests; those on restarts are for equations that never abort.  Disagreements: an explicit Runge-Kutta integrator loops forever on a zero step, and the multistep integrators die on negative steps."},
 {"property": "C45", "status": "proved", "theorems": ["Principia.Integrators.C45_embedded_runge_kutta_order", "Principia.Integrators.C45_embedded_nystrom_order", "Principia.Integrators.C45_embedded_generalized_nystrom_order", "Principia.Integrators.C45_fine34_velocity_independent_order", "Principia.Integrators.C45_fine34_corrected_order", "Principia.Integrators.C45_fine34_counterexample", "Principia.Integrators.C45_symplectic_order", "Principia.Integrators.C45_symplectic_order_accurate", "Principia.Integrators.C45_runge_kutta_order", "Principia.Integrators.C45_multistep_order", "Principia.Integrators.C45_symmetric_multistep_order", "Principia.Integrators.C45_cohen_hubbard_oesterwinter_exact"], "note": "The coefficients are the decimals written in the source, not their roundings to double. The symplectic methods meet the order conditions up to 1e-15 (吉田1990Order8C and 8D: 1e-12), because their coefficients are decimal approximations of irrational numbers: the theorem has a term in h with that factor. The rational methods are exact. One method, Fine1987RKNG34, does not have its stated order because of a wrong coefficient: C45_fine34_counterexample."},
 {"property": "C46", "status": "proved", "theorems": ["Principia.Journal.C46_replay", "Principia.Journal.C46_replay_incomplete", "Principia.Journal.C46_record_replay", "Principia.Journal.C46_record_replay_closed", "Principia.Journal.C46_pointers", "Principia.Journal.C46_reused_address_counterexample", "Principia.Journal.C46_activation_counterexample", "Principia.Journal.C46_recorded", "Principia.Journal.C46_recorded_quiescent", "Principia.Journal.C46_no_undefined_behaviour", "Principia.Journal.C46_progress"], "note": "The recorder must only be activated and deactivated while no journalled function is running (C46_activation_counterexample), and objects must be destroyed by journalled calls (C46_reused_address_counterexample). Protocol buffers are represented by the laws Codec.Lawful, which hold for the encoding in Verif/Journal/Wire.lean. The generated Run functions are modelled by the sequence of operations that the generator emits; the functions of the interface themselves are not."},
 {"property": "C47", "status": "proved", "theorems": ["Principia.DiscreteTrajectory.C47_at_points", "Principia.DiscreteTrajectory.C47_between_points", "Principia.DiscreteTrajectory.C47_domain"], "note": ""},
 {"property": "C48", "status": "proved", "theorems": ["Principia.Manoeuvre.C48_constructor", "Principia.Manoeuvre.C48_rocket_equation", "Principia.Manoeuvre.C48_accumulated_delta_v", "Principia.Manoeuvre.C48_no_acceleration_outside", "Principia.Manoeuvre.C48_serialization", "Principia.Manoeuvre.C48_old_serialization", "Principia.Manoeuvre.C48_duration_mass", "Principia.Manoeuvre.C48_fits_between", "Principia.Manoeuvre.C48_zero_thrust_counterexample"], "note": "Over the real numbers, rounding is not modelled. The comment about vanishing thrust in the constructor is wrong: the time of half Δv is then not a number (C48_zero_thrust_counterexample)."},
 {"property": "C49", "status": "partial", "theorems": ["Principia.FlightPlan.C49_requests", "Principia.FlightPlan.C49_stale_counterexample", "Principia.FlightPlan.C49_extended_mission_counterexample"], "note": "C49_requests covers the first point and the end of the mission of the coasts that are not after an anomaly. False of the code for the coast after an anomalous burn (C49_stale_counterexample) and for the extended mission (C49_extended_mission_counterexample)."},
 {"property": "C50", "status": "partial", "theorems": ["Principia.FlightPlan.C50_insert_partial", "Principia.FlightPlan.C50_replace_partial", "Principia.FlightPlan.C50_remove_partial", "Principia.FlightPlan.C50_final_time", "Principia.FlightPlan.C50_recompute_partial", "Principia.FlightPlan.C50_avoid_deadline_partial", "Principia.FlightPlan.C50_make", "Principia.FlightPlan.C50_rocket_insert", "Principia.FlightPlan.C50_rocket_replace", "Principia.FlightPlan.C50_sound_remove", "Principia.FlightPlan.C50_sound_others", "Principia.FlightPlan.C50_replace_counterexample", "Principia.FlightPlan.C50_insert_counterexample", "Principia.FlightPlanRocket.C50_rocket"], "note": "Proved for the operations whose resulting manœuvres are in order, and in particular for all insertions, replacements by burns that do not consume less mass, removals and other operations on sound plans (ordered manœuvres, consistent masses), for engines obeying the rocket equation (C50_rocket). False of the code otherwise: C50_replace_counterexample, C50_insert_counterexample."},
 {"property": "C51", "status": "proved", "theorems": ["Principia.FlightPlan.C51_determined", "Principia.FlightPlan.C51_saved", "Principia.FlightPlan.C51_loads"], "note": "The integrations are an oracle, the same for all the operations of a history; copies are excluded because they lose the status (C34_status_counterexample)."},
 {"property": "C52", "status": "partial", "theorems": ["Principia.Geometry.M3.C52_uninitialized", "Principia.Geometry.M3.C52_inertia", "Principia.Geometry.M3.C52_diagonal", "Principia.Geometry.M3.C52_pivot_counterexample", "Principia.Geometry.M3.C52_solution"], "note": "Exact arithmetic over an ordered field; success implies the right solution. Missing: the solver does not succeed on every invertible matrix, because pivots are chosen in the original matrix and not in the reduced one (C52_pivot_counterexample); it does on inertia matrices of point masses (C52_inertia) and on diagonal ones."},
 {"property": "C53", "status": "proved", "theorems": ["Principia.Geometry.Form.C53_diagonalize", "Principia.Geometry.Form.C53_diagonalize_exact", "Principia.Geometry.Form.C53_is_diagonalized", "Principia.Geometry.Form.C53_diagonalize_positive", "Principia.Geometry.Form.C53_bilinear", "Principia.Geometry.Form.C53_products", "Principia.Geometry.Form.C53_anticommutator", "Principia.Geometry.Form.C53_anticommutator_inverse", "Principia.Geometry.Form.C53_divide"], "note": "Exact real arithmetic; the convergence of the Jacobi iterations within the 16 iterations of the code is proved for every symmetric form."},
 {"property": "C54", "status": "partial", "theorems": ["Principia.Quantities.Parser.C54_format", "Principia.Quantities.Parser.C54_units", "Principia.Quantities.Parser.C54_parses", "Principia.Quantities.Parser.C54_number", "Principia.Quantities.Parser.C54_exponent_counterexample", "Principia.Quantities.Parser.C54_accepts_partial"], "note": "strtod is a parameter. Completeness (C54_parses, C54_number, C54_format) is proved for exponents that fit in an int. Missing: only texts of the grammar are accepted; any text after the digits of an exponent is ignored (C54_exponent_counterexample), and C54_accepts_partial gives the grammar that is actually accepted."},
 {"property": "C55", "status": "proved", "theorems": ["Principia.Physics.Kepler.C55_success", "Principia.Physics.Kepler.C55_orientation", "Principia.Physics.Kepler.C55_conic"], "note": "Exact real arithmetic extended with a NaN, with which the infinities are identified. Covers the conic and orientation parameters; the anomalies are C56."},
 {"property": "C56", "status": "proved", "theorems": ["Principia.Physics.Kepler.C56_equatorial_counterexample", "Principia.Physics.Kepler.C56_circular_counterexample", "Principia.Physics.Kepler.C56_ellipse", "Principia.Physics.Kepler.C56_hyperbola", "Principia.Physics.Kepler.C56_true_anomaly_counterexample", "Principia.Physics.Kepler.C56_one_anomaly", "Principia.Physics.Kepler.C56_parabola_counterexample", "Principia.Physics.Kepler.C56_states", "Principia.Physics.Kepler.C56_incoming_counterexample"], "note": "Exact real arithmetic extended with a NaN. Brent's method is a parameter that returns an exact root of a continuous function whose values at the bounds have opposite signs. For state vectors, orbits that are exactly equatorial, circular or parabolic and hyperbolic orbits before their periapsis are excluded, and shown to violate the property."},
 {"property": "C57", "status": "proved", "theorems": ["Principia.Physics.Motion.C57_unique", "Principia.Physics.Motion.C57_velocity", "Principia.Physics.Motion.C57_inverse", "Principia.Physics.Motion.C57_compose", "Principia.Physics.Motion.C57_from_frame", "Principia.Physics.Motion.C57_group", "Principia.Physics.Motion.C57_getters", "Principia.Physics.Motion.C57_identity", "Principia.Physics.Motion.C57_non_rotating", "Principia.Physics.Motion.C57_similar_velocity", "Principia.Physics.Motion.C57_similar_inverse", "Principia.Physics.Motion.C57_similar_compose", "Principia.Physics.Motion.C57_forget", "Principia.Physics.Motion.C57_dilatation", "Principia.Physics.Motion.C57_similar_group"], "note": "Exact real arithmetic; the transformations are represented by unit quaternions and positive scales. Serialization is not modelled."},
 {"property": "C58", "status": "proved", "theorems": ["Principia.Physics.Mechanical.C58_mechanical_system", "Principia.Physics.Mechanical.C58_massless"], "note": "Exact real arithmetic. The rigid bodies are arbitrary finite sets of particles, whose centre of mass is the origin of the frame of the body; continuous distributions of mass are not considered."},
 {"property": "C59", "status": "proved", "theorems": ["Principia.Physics.Frames.C59_second_derivative_counterexample", "Principia.Physics.Frames.C59_free_fall", "Principia.Physics.Frames.C59_potential", "Principia.Physics.Frames.C59_rotation", "Principia.Physics.Frames.C59_frenet", "Principia.Physics.Frames.C59_body_centred_non_rotating", "Principia.Physics.Frames.C59_body_surface", "Principia.Physics.Frames.C59_body_direction", "Principia.Physics.Frames.C59_barycentric_rotating", "Principia.Physics.Frames.C59_rotating_pulsating", "Principia.Physics.Frames.C59_pulsating_free_fall", "Principia.Physics.Frames.C59_pulsating_potential", "Principia.Physics.Frames.C59_cache"], "note": "Exact real arithmetic. The ephemeris is a parameter, consistent in the sense that its velocities, accelerations and jerks are the derivatives of the positions. For the frames defined by two bodies or groups of bodies, their relative position and velocity must never be parallel, otherwise the normalizations check-fail. Serialization, the bounds on times and the debug check of RotationFreeGeometricAccelerationAtRest are not modelled."},
 {"property": "C60", "status": "proved", "theorems": ["Principia.Geometry.Cx.C60_complex_numbers", "Principia.Geometry.Cx.C60_complex_vectors", "Principia.Geometry.Cx.C60_division", "Principia.Geometry.Cx.C60_inner_product", "Principia.Geometry.Cx.C60_subtraction_counterexample"], "note": "Exact arithmetic. The subtraction of a complex number from a real one is wrong in the code: C60_subtraction_counterexample."},
 {"property": "C61", "status": "proved", "theorems": ["Principia.Numerics.Chebyshev.C61_interpolant", "Principia.Numerics.Chebyshev.C61_estimate", "Principia.Numerics.Chebyshev.C61_exact", "Principia.Numerics.Chebyshev.C61_streaming", "Principia.Numerics.Chebyshev.C61_adaptive", "Principia.Numerics.Chebyshev.C61_streaming_adaptive", "Principia.Numerics.Chebyshev.C61_termination", "Principia.Numerics.Chebyshev.C61_positive_error"], "note": "Exact arithmetic: subdivision down to one or two machine numbers isn't reachable in the model. The function has real values."},
 {"property": "C62", "status": "proved", "theorems": ["Principia.Physics.FirstCollision.C62_first_collision", "Principia.Physics.FirstCollision.C62_termination", "Principia.Physics.FirstCollision.C62_linear_counterexample"], "note": "Exact arithmetic; the height is a parameter, the eigenvalues are exact; under the hypotheses that the error estimates are bounds and that the pieces that may have roots have degree 2 at least (otherwise the result is wrong, C62_linear_counterexample)."},
 {"property": "C65", "status": "proved", "theorems": ["Principia.Integrators.C65_runge_kutta_steps", "Principia.Integrators.C65_nystrom_steps", "Principia.Integrators.C65_generalized_nystrom_steps", "Principia.Integrators.C65_times", "Principia.Integrators.C65_runge_kutta_terminates", "Principia.Integrators.C65_nystrom_terminates", "Principia.Integrators.C65_check", "Principia.Integrators.C65_new_instance", "Principia.Integrators.C65_runge_kutta_restart", "Principia.Integrators.C65_nystrom_restart", "Principia.Integrators.C65_backward_counterexample", "Principia.Integrators.C65_methods"], "note": "Over the reals: the test that a step vanishes is an arbitrary predicate, true of zero (and, for termination, of all steps below some size); the tolerance is never negative. The restart theorem is for forward integrations of equations that never fail and when max_steps is not reached."},
 {"property": "C63", "status": "partial", "theorems": ["Principia.Apsides.C63_apsides", "Principia.Apsides.C63_true_periapsis", "Principia.Apsides.C63_true_apoapsis", "Principia.Apsides.C63_exact", "Principia.Apsides.C63_periapsis_counterexample", "Principia.Apsides.C63_nodes", "Principia.Apsides.C63_node_direction_counterexample"], "note": "The classification of the nodes is proved for what the code does (the sign of the velocity at the second point), which differs from the property: C63_node_direction_counterexample. A periapsis is a minimum unless the derivative is exactly zero at the second point: C63_periapsis_counterexample. Interruption is modelled by a shorter list of points; the output maps are initially empty."},
 {"property": "C64", "status": "proved", "theorems": ["Principia.CollisionIntervals.C64_collision_intervals", "Principia.CollisionIntervals.C64_anomalous_counterexample"], "note": "The instants are real numbers and the origin of time is not in the range of the trajectory, as in C41 (the tolerance of the bisection is relative)."},
 {"property": "C66", "status": "proved", "theorems": ["Principia.Integrators.C66_time_reversible", "Principia.Integrators.C66_linear_momentum", "Principia.Integrators.C66_centre_of_mass", "Principia.Integrators.C66_angular_momentum", "Principia.Integrators.C66_symplectic", "Principia.Integrators.C66_methods"], "note": "The arithmetic is exact.  If the sum of the coefficients of the method is not exactly 1 (it is checked up to 4 ULPs), the equation must be autonomous."},
 {"property": "C67", "status": "proved", "theorems": ["Principia.ContinuousTrajectory.C67_append", "Principia.ContinuousTrajectory.C67_bounds", "Principia.ContinuousTrajectory.C67_evaluate_bounds", "Principia.ContinuousTrajectory.C67_evaluate", "Principia.ContinuousTrajectory.C67_deterministic", "Principia.ContinuousTrajectory.C67_degree", "Principia.ContinuousTrajectory.C67_status", "Principia.ContinuousTrajectory.C67_error", "Principia.ContinuousTrajectory.C67_error_counterexample", "Principia.ContinuousTrajectory.C67_gap_counterexample", "Principia.ContinuousTrajectory.C67_checkpoint", "Principia.ContinuousTrajectory.C67_save"], "note": "The arithmetic is exact and the Newhall approximation is an arbitrary function that returns a polynomial and an error estimate.  The assertion about the error is false without the exception for increasing error estimates, see C67_error_counterexample.  C67_gap_counterexample shows that a trajectory may lose polynomials through serialization when its first checkpoint is taken after its first polynomial."},
 {"property": "C68", "status": "proved", "theorems": ["Principia.Ephemeris.C68_deterministic", "Principia.Ephemeris.C68_evaluate", "Principia.Ephemeris.C68_succeeds", "Principia.Ephemeris.C68_prolong", "Principia.Ephemeris.C68_prolong_keeps", "Principia.Ephemeris.C68_reanimation", "Principia.Ephemeris.C68_reanimation_terminates", "Principia.Ephemeris.C68_round_trip", "Principia.Ephemeris.Example.C68_deterministic_counterexample", "Principia.Ephemeris.Example.C68_reanimation_stopped_counterexample", "Principia.Ephemeris.Example.C68_stopped_prolong_counterexample"], "note": "The statuses of the fitting (apocalypse) don't change the control flow and are not modelled. Times are an ordered group, so rounding of the times is not modelled. The exclusions of the hypotheses are shown to be necessary by C68_*_counterexample."},
 {"property": "C69", "status": "proved", "theorems": ["Principia.Gravity.C69_construction", "Principia.Gravity.C69_accelerations", "Principia.Gravity.C69_initial_accelerations", "Principia.Gravity.C69_on_massive_body", "Principia.Gravity.C69_linear_momentum", "Principia.Gravity.C69_angular_momentum", "Principia.Gravity.C69_energy", "Principia.Gravity.C69_massless", "Principia.Gravity.C69_potential", "Principia.Gravity.C69_gradient", "Principia.Gravity.C69_jacobian", "Principia.Gravity.C69_jerk", "Principia.Gravity.C69_jerk_massless", "Principia.Gravity.C69_integrated_momentum", "Principia.Gravity.C69_integrated_angular_momentum"], "note": ""},
 {"property": "C70", "status": "proved", "theorems": ["Principia.Geopotential.C70_damping", "Principia.Geopotential.C70_thresholds", "Principia.Geopotential.C70_thresholds_exact", "Principia.Geopotential.C70_tolerance", "Principia.Geopotential.C70_potential", "Principia.Geopotential.C70_no_damping", "Principia.Geopotential.C70_gradient", "Principia.Geopotential.C70_system_gradient", "Principia.Geopotential.C70_energy", "Principia.Geopotential.C70_order_21_counterexample", "Principia.Geopotential.C70_degree_counterexample"], "note": ""},
 {"property": "C71", "status": "proved", "theorems": ["Principia.Physics.Euler.C71_free_rotation", "Principia.Physics.Euler.C71_unique", "Principia.Physics.Euler.C71_restart", "Principia.Physics.Euler.C71_motion", "Principia.Physics.Euler.C71_serialization", "Principia.Physics.Euler.C71_checks"], "note": ""},
 {"property": "C72", "status": "proved", "theorems": ["Principia.Ksp.PileUp.C72_construct", "Principia.Ksp.PileUp.C72_forces", "Principia.Ksp.PileUp.C72_part", "Principia.Ksp.PileUp.C72_deform", "Principia.Ksp.PileUp.C72_warp", "Principia.Ksp.PileUp.C72_advance", "Principia.Ksp.PileUp.C72_conservation", "Principia.Ksp.PileUp.C72_free_rotation", "Principia.Ksp.PileUp.C72_isolated", "Principia.Ksp.PileUp.C72_barycentre", "Principia.Ksp.PileUp.C72_no_crash"], "note": "The angular momentum of the particles is that of the pile-up up to 2^-57 of the Frobenius norm of the inertia tensor times the angular velocity, which comes from the diagonalization. Serialization and concurrency of pile-ups are not modelled."},
 {"property": "C73", "status": "proved", "theorems": ["Principia.Numerics.Matrices.C73_back", "Principia.Numerics.Matrices.C73_forward", "Principia.Numerics.Matrices.C73_solve", "Principia.Numerics.Matrices.C73_solve_dominant", "Principia.Numerics.Matrices.C73_solve_2", "Principia.Numerics.Matrices.C73_solve_counterexample", "Principia.Numerics.Matrices.C73_cholesky", "Principia.Numerics.Matrices.C73_cholesky_sound", "Principia.Numerics.Matrices.C73_rdr", "Principia.Numerics.Matrices.C73_rdr_sound", "Principia.Numerics.Matrices.C73_rdr_counterexample", "Principia.Numerics.Matrices.C73_unitriangular_gram_schmidt", "Principia.Numerics.Matrices.C73_gram_schmidt", "Principia.Numerics.Matrices.C73_gram_schmidt_sound"], "note": "Exact arithmetic. The resolution of general systems fails on some regular matrices of dimension 3 or more (counterexample)."},
 {"property": "C74", "status": "proved", "theorems": ["Principia.Numerics.Lattices.C74_lll_lattice", "Principia.Numerics.Lattices.C74_lll_reduced", "Principia.Numerics.Lattices.C74_lll_terminates", "Principia.Numerics.Lattices.C74_lll_short", "Principia.Numerics.Lattices.C74_round_counterexample", "Principia.Numerics.Lattices.C74_ns_lattice", "Principia.Numerics.Lattices.C74_ns_basis", "Principia.Numerics.Lattices.C74_ns_reduced", "Principia.Numerics.Lattices.C74_ns_terminates", "Principia.Numerics.Lattices.C74_ns_short"], "note": "The preservation of the lattice is for any arithmetic. The reduction, the length of the first vector and the termination are for exact arithmetic and linearly independent columns; the termination of NguyễnStehlé is when the conversion to an integer does not saturate."},
 {"property": "C75", "status": "proved", "theorems": ["Principia.Numerics.Matrices.C75_householder", "Principia.Numerics.Matrices.C75_householder_counterexample", "Principia.Numerics.Matrices.C75_hessenberg_shape", "Principia.Numerics.Matrices.C75_hessenberg", "Principia.Numerics.Matrices.C75_hessenberg_identity_counterexample", "Principia.Numerics.Matrices.C75_hessenberg_counterexample", "Principia.Numerics.Matrices.C75_schur_shape", "Principia.Numerics.Matrices.C75_schur_eigenvalues", "Principia.Numerics.Matrices.C75_schur", "Principia.Numerics.Matrices.C75_schur_termination_counterexample", "Principia.Numerics.Matrices.C75_schur_exact_shift_counterexample", "Principia.Numerics.Matrices.C75_schur_counterexample", "Principia.Numerics.Matrices.C75_jacobi", "Principia.Numerics.Matrices.C75_jacobi_complete", "Principia.Numerics.Matrices.C75_jacobi_converges", "Principia.Numerics.Matrices.C75_rayleigh_quotient", "Principia.Numerics.Matrices.C75_rayleigh"], "note": "The arithmetic is that of the real numbers.  The tolerance of the real Schur decomposition is zero where its eigenvalues are compared with those of the argument."},
 {"property": "C76", "status": "proved", "theorems": ["Principia.Numerics.Davenport.C76_wahba", "Principia.Numerics.Davenport.C76_recovers", "Principia.Numerics.Davenport.C76_sizes", "Principia.Numerics.Davenport.C76_empty"], "note": ""},
 {"property": "C77", "status": "proved", "theorems": ["Principia.Ksp.Lifecycle.C77_refinement", "Principia.Ksp.Lifecycle.C77_consistent", "Principia.Ksp.Lifecycle.C77_cleanup", "Principia.Ksp.Lifecycle.C77_vessels", "Principia.Ksp.Lifecycle.C77_zombie", "Principia.Ksp.Lifecycle.C77_truthful", "Principia.Ksp.Lifecycle.C77_emptied_vessel_counterexample", "Principia.Ksp.Lifecycle.C77_known_unloaded_part", "Principia.Ksp.Lifecycle.C77_nothing_kept"], "note": "The union-find structure is modelled by the equivalence relation that it computes (proved in C07/C08 for the structure itself). A report of a collision that follows a cleanup without a new PrepareToReportCollisions is a crash in the model. C77_emptied_vessel_counterexample: if the last part of a declared vessel moves to another vessel, the cleanup crashes."},
 {"property": "C78", "status": "partial", "theorems": ["Principia.Geometry.Perspectives.C78_hidden", "Principia.Geometry.Perspectives.C78_hidden_counterexample", "Principia.Geometry.Perspectives.C78_visible", "Principia.Geometry.Perspectives.C78_inside", "Principia.Geometry.Perspectives.C78_many", "Principia.Geometry.Perspectives.C78_plane_counterexample", "Principia.Geometry.Perspectives.C78_aligned_counterexample", "Principia.Geometry.Perspectives.C78_focal", "Principia.Geometry.Perspectives.C78_focal_counterexample", "Principia.Geometry.Perspectives.C78_distance", "Principia.Geometry.Perspectives.C78_tan", "Principia.Geometry.Perspectives.C78_half_angle", "Principia.Geometry.Perspectives.C78_projection", "Principia.Geometry.Perspectives.C78_image"], "note": "Proved if the camera is not aligned with the segment, is not on a sphere, and the first extremity of each part considered is not in the plane of the camera orthogonal to the direction of a centre. Counterexamples are given without these hypotheses (C78_plane_counterexample, C78_aligned_counterexample), for `IsHiddenBySphere` with the camera inside of the sphere (C78_hidden_counterexample), and for `SegmentBehindFocalPlane` when the scale of the similarity is not one (C78_focal_counterexample). Isolated points (extremities, points of tangency) may be omitted."},
 {"property": "C79", "status": "proved", "theorems": ["Principia.Numerics.DoublePrecisions.DoublePrecision.C79_div", "Principia.Numerics.DoublePrecisions.DoublePrecision.C79_div_left", "Principia.Numerics.DoublePrecisions.DoublePrecision.C79_div_right", "Principia.Numerics.DoublePrecisions.C79_two_sum", "Principia.Numerics.DoublePrecisions.C79_two_difference", "Principia.Numerics.DoublePrecisions.C79_quick_two_sum", "Principia.Numerics.DoublePrecisions.C79_quick_two_difference", "Principia.Numerics.DoublePrecisions.C79_two_product", "Principia.Numerics.DoublePrecisions.C79_two_product_fma", "Principia.Numerics.DoublePrecisions.DoublePrecision.C79_normal", "Principia.Numerics.DoublePrecisions.DoublePrecision.C79_neg", "Principia.Numerics.DoublePrecisions.DoublePrecision.C79_add_scalar", "Principia.Numerics.DoublePrecisions.DoublePrecision.C79_sub_scalar", "Principia.Numerics.DoublePrecisions.DoublePrecision.C79_add", "Principia.Numerics.DoublePrecisions.DoublePrecision.C79_sub", "Principia.Numerics.DoublePrecisions.DoublePrecision.C79_mul_scalar", "Principia.Numerics.DoublePrecisions.DoublePrecision.C79_mul", "Principia.Numerics.DoublePrecisions.DoublePrecision.C79_increment", "Principia.Numerics.DoublePrecisions.DoublePrecision.C79_decrement", "Principia.Numerics.DoublePrecisions.DoublePrecision.C79_accumulate", "Principia.Numerics.DoublePrecisions.DoublePrecision.C79_compare", "Principia.Numerics.DoublePrecisions.DoublePrecision.C79_scale", "Principia.Numerics.DoublePrecisions.DoublePrecision.C79_trunc", "Principia.Numerics.DoublePrecisions.DoublePrecision.C79_trunc_counterexample"], "note": "Relative errors are at most 4u² (scalar plus pair), 6u² (pair plus pair), 5u² (scalar times pair) 11u² (pair times pair) and 19u² (quotients), where u = 2^-53; the comments of the code quote slightly smaller constants from the literature. Trunc is only correct when the value is an integer or the error is zero: C79_trunc_counterexample."},
 {"property": "C80", "status": "proved", "theorems": ["Principia.Numerics.Next.C80_log_b", "Principia.Numerics.Next.C80_scale_b", "Principia.Numerics.Next.C80_scale_b_counterexample", "Principia.Numerics.Next.C80_next_up", "Principia.Numerics.Next.C80_next_down", "Principia.Numerics.Next.C80_ulp_distance", "Principia.Numerics.Next.C80_ulp_distance_zero"], "note": "C80_scale_b requires the number to be nonnegative or the scale to be at least -1023; C80_scale_b_counterexample shows that this is needed."},
 {"property": "C81", "status": "proved", "theorems": ["Principia.Numerics.Quadrature.C81_exact", "Principia.Numerics.Quadrature.C81_evaluations", "Principia.Numerics.Quadrature.C81_automatic", "Principia.Numerics.Quadrature.C81_max_points", "Principia.Numerics.Quadrature.C81_max_points_counterexample", "Principia.Numerics.Quadrature.C81_midpoint"], "note": "The last-but-one sentence (the number of points does not exceed the given maximum, as documented) is false of the code: C81_max_points_counterexample; C81_max_points proves the bound that holds."},
 {"property": "C82", "status": "proved", "theorems": ["Principia.Numerics.FiniteDifferences.C82_error", "Principia.Numerics.FiniteDifferences.C82_exact", "Principia.Numerics.FiniteDifferences.C82_central", "Principia.Numerics.FiniteDifferences.C82_zero_step"], "note": ""},
 {"property": "C83", "status": "proved", "theorems": ["Principia.Numerics.Hermite2s.C83_interpolates", "Principia.Numerics.Hermite2s.C83_derivative", "Principia.Numerics.Hermite2s.C83_reproduces", "Principia.Numerics.Hermite2s.C83_degenerate", "Principia.Numerics.Hermite2s.C83_extremum"], "note": ""},
 {"property": "C84", "status": "proved", "theorems": ["Principia.Numerics.GradientDescent.C84_wolfe", "Principia.Numerics.GradientDescent.C84_line_search_terminates", "Principia.Numerics.GradientDescent.C84_update", "Principia.Numerics.GradientDescent.C84_bfgs", "Principia.Numerics.GradientDescent.C84_worse_counterexample"], "note": "Termination is proved for each line search, not for the whole minimization (which BFGS does not guarantee for nonconvex functions). A line search abandoned because two successive values are equal may return a worse argument than the start: C84_worse_counterexample."},
 {"property": "C85", "status": "proved", "theorems": ["Principia.Numerics.Poisson.C85_value", "Principia.Numerics.Poisson.C85_construct", "Principia.Numerics.Poisson.C85_construct_fails", "Principia.Numerics.Poisson.C85_add", "Principia.Numerics.Poisson.C85_add_fails", "Principia.Numerics.Poisson.C85_scalar", "Principia.Numerics.Poisson.C85_mul", "Principia.Numerics.Poisson.C85_at_origin", "Principia.Numerics.Poisson.C85_max", "Principia.Numerics.Poisson.C85_split", "Principia.Numerics.Poisson.C85_primitive", "Principia.Numerics.Poisson.C85_integrate"], "note": "Scalar values, exact arithmetic. Norm and InnerProduct (which use the Clenshaw-Curtis quadrature) are not modelled; the pointwise inner product is the same Multiply as the product with a different product of coefficients."},
 {"property": "C86", "status": "proved", "theorems": ["Principia.Numerics.AngleReduction.C86_half", "Principia.Numerics.AngleReduction.C86_symmetric", "Principia.Numerics.AngleReduction.C86_positive", "Principia.Numerics.AngleReduction.C86_sin_cos", "Principia.Numerics.AngleReduction.C86_cos_abs"], "note": "Exact real arithmetic; the choice of the quadrant is arbitrary among the neighbouring ones. The polynomial approximations and the roundings are not modelled here."},
 {"property": "C87", "status": "proved", "theorems": ["Principia.Numerics.Combinatorics.C87_falling", "Principia.Numerics.Combinatorics.C87_factorial", "Principia.Numerics.Combinatorics.C87_factorial_range", "Principia.Numerics.Combinatorics.C87_binomial", "Principia.Numerics.Combinatorics.C87_binomial_counterexample", "Principia.Numerics.Combinatorics.C87_double_factorial", "Principia.Numerics.Combinatorics.C87_legendre", "Principia.Numerics.Combinatorics.C87_legendre_range", "Principia.Numerics.Combinatorics.C87_kronecker"], "note": "The division of the integers is exact: its rounding to double precision is not modelled. Negative arguments are only covered for the double factorial."},
 {"property": "C88", "status": "proved", "theorems": ["Principia.Calendar.C88_time_of_day", "Principia.Calendar.C88_day_length", "Principia.Calendar.C88_end_of_day", "Principia.Calendar.C88_order", "Principia.Calendar.C88_epochs", "Principia.Calendar.C88_negative_leap_counterexample", "Principia.Calendar.C88_lookup"], "note": "Durations are exact rationals. The order is proved for UTC since 1972; for UTC before 1972 the conversion is modelled but only the rejection of existing times is shown (C88_negative_leap_counterexample). The contents of the tables of UT1 and the interpolation are not modelled."},
 {"property": "C89", "status": "proved", "theorems": ["Principia.GroundTrack.C89_interval", "Principia.GroundTrack.C89_measure", "Principia.GroundTrack.C89_unwind", "Principia.GroundTrack.C89_mean_solar_times", "Principia.GroundTrack.C89_reduced_longitudes", "Principia.GroundTrack.C89_pass", "Principia.GroundTrack.C89_nominal", "Principia.GroundTrack.C89_nominal_descending", "Principia.GroundTrack.C89_no_node_counterexample", "Principia.GroundTrack.C89_descending_first"], "note": "Exact real arithmetic. The computation of the nodes and the rotation of the primary are not modelled. The reduction to a pass of an interval with infinite bounds (no crossing) is not modelled."},
 {"property": "C90", "status": "proved", "theorems": ["Principia.Numerics.Apodization.C90_dirichlet", "Principia.Numerics.Apodization.C90_sine", "Principia.Numerics.Apodization.C90_hann", "Principia.Numerics.Apodization.C90_hamming", "Principia.Numerics.Apodization.C90_blackman", "Principia.Numerics.Apodization.C90_exactBlackman", "Principia.Numerics.Apodization.C90_nuttall", "Principia.Numerics.Apodization.C90_blackmanNuttall", "Principia.Numerics.Apodization.C90_blackmanHarris", "Principia.Numerics.Apodization.C90_iso18431_2"], "note": "Exact real arithmetic: the coefficients are the decimal or rational constants of the source."},
 {"property": "C91", "status": "proved", "theorems": ["Principia.Numerics.Triangular.C91_layout", "Principia.Numerics.Triangular.C91_assignment", "Principia.Numerics.Triangular.C91_extend", "Principia.Numerics.Triangular.C91_erase", "Principia.Numerics.Triangular.C91_deduce", "Principia.Numerics.Triangular.C91_deduce_empty_counterexample"], "note": "The elements left uninitialized, the transposition of the initializer lists and the arithmetic of the matrices are not modelled; the square root is exact. The deduction of the size fails for an empty list (C91_deduce_empty_counterexample)."},
 {"property": "C92", "status": "proved", "theorems": ["Principia.Numerics.Piecewise.C92_value", "Principia.Numerics.Piecewise.C92_append", "Principia.Numerics.Piecewise.C92_operators", "Principia.Numerics.Piecewise.C92_fourier", "Principia.Numerics.Piecewise.C92_fourier_values", "Principia.Numerics.Piecewise.C92_append_cache", "Principia.Numerics.Piecewise.C92_stale_cache_counterexample"], "note": "The Poisson series are functions (see C85) and the arithmetic is exact. The weights of the quadrature, the inner products, the norm and the serialization are not modelled, nor is the sharing of the cache by the copies. The Fourier transform is correct if the function was not modified by += or -= since it was last evaluated; otherwise it is not (C92_stale_cache_counterexample)."}
]}
