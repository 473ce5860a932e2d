{
 "claims": [
  {
   "property": "C01",
   "status": "proved",
   "theorems": [
    "Verif.LogicTree.c01_enumeration",
    "Verif.LogicTree.c01_no_exception"
   ],
   "note": ""
  },
  {
   "property": "C02",
   "status": "proved",
   "theorems": [
    "Verif.LogicTree.c02_order_distinct_first"
   ],
   "note": ""
  },
  {
   "property": "C03",
   "status": "proved",
   "theorems": [
    "Verif.LogicTree.c03_branch_weight",
    "Verif.LogicTree.c03_weight_sum",
    "Verif.LogicTree.c03_weight_sum_one",
    "Verif.LogicTree.c03_duplicate_value_counterexample"
   ],
   "note": "Weight statements proved; an extra counterexample shows that weights no longer sum to one when two alternatives of a node share a value, which the statement excludes."
  },
  {
   "property": "C04",
   "status": "proved",
   "theorems": [
    "Verif.LogicTree.c04_validity",
    "Verif.LogicTree.c04_exception",
    "Verif.LogicTree.c04_alternative"
   ],
   "note": ""
  },
  {
   "property": "C05",
   "status": "proved",
   "theorems": [
    "Verif.LogicTree.c05_tree_get",
    "Verif.LogicTree.c05_by_value",
    "Verif.LogicTree.c05_node_iter",
    "Verif.LogicTree.c05_defaults",
    "Verif.LogicTree.c05_from_list",
    "Verif.LogicTree.c05_to_xarray"
   ],
   "note": ""
  },
  {
   "property": "C06",
   "status": "proved",
   "theorems": [
    "Verif.LogicTree.c06_miller_rice"
   ],
   "note": ""
  },
  {
   "property": "C07",
   "status": "partial",
   "theorems": [
    "Verif.Profile.c07_value",
    "Verif.Profile.c07_iff",
    "Verif.Profile.c07_history_partial",
    "Verif.Profile.c07_halfspace_no_twin",
    "Verif.Profile.c07_effect",
    "Verif.Profile.c07_depth_mid",
    "Verif.Profile.c07_equal_layers_counterexample",
    "Verif.Profile.c07_negative_insert_counterexample",
    "Verif.Profile.c07_insert_past_end_counterexample",
    "Verif.Profile.c07_new_layer",
    "Verif.Profile.c07_stale"
   ],
   "note": "Proved for every history of edits that inserts at positions 0..len and after which no layer above the last equals a last layer of positive thickness (automatic for half-spaces of zero thickness). Refuted in general: equal layers, negative insertion index, insertion past the end. For new profiles the depths are given exactly (c07_value), and c07_iff says when they are right."
  },
  {
   "property": "C08",
   "status": "partial",
   "theorems": [
    "Verif.Profile.c08_value",
    "Verif.Profile.c08_history_partial",
    "Verif.Profile.c08_equal_layers_counterexample",
    "Verif.Profile.c08_stress_vert",
    "Verif.Profile.c08_continuous"
   ],
   "note": "Same restriction as C07 for stresses at layer tops; refuted by a profile with two equal layers. For new profiles the stresses are given exactly (c08_value). stress_vert and continuity proved in full."
  },
  {
   "property": "C09",
   "status": "proved",
   "theorems": [
    "Verif.Profile.c09_lookup",
    "Verif.Profile.c09_unique",
    "Verif.Profile.c09_negative_depth"
   ],
   "note": "Under the hypothesis that no layer equals a last layer of positive thickness (otherwise the depths themselves are wrong, see C07)."
  },
  {
   "property": "C10",
   "status": "partial",
   "theorems": [
    "Verif.Profile.c10_index_value",
    "Verif.Names.c10_output_location",
    "Verif.Profile.c10_index_partial",
    "Verif.Profile.c10_depth",
    "Verif.Profile.c10_errors",
    "Verif.Profile.c10_equal_layers_counterexample",
    "Verif.Profile.c10_wave_field"
   ],
   "note": "Proved when no earlier layer equals layer k; refuted for profiles with equal layers; c10_index_value gives the index in all cases and says exactly when it is k."
  },
  {
   "property": "C11",
   "status": "proved",
   "theorems": [
    "Verif.Profile.c11_time_average",
    "Verif.Profile.c11_between"
   ],
   "note": ""
  },
  {
   "property": "C12",
   "status": "partial",
   "theorems": [
    "Verif.Profile.c12_iff",
    "Verif.Profile.c12_vs30_value",
    "Verif.Profile.c12_vs30_partial",
    "Verif.Profile.c12_shallow_counterexample"
   ],
   "note": "Proved when the half-space is at or below 30 m; refuted for shallower half-spaces: c12_iff says that this is exactly when it is right, and that it is too large otherwise."
  },
  {
   "property": "C13",
   "status": "proved",
   "theorems": [
    "Verif.Profile.c13_pieces",
    "Verif.Profile.c13_linear_kept",
    "Verif.Profile.c13_discretize",
    "Verif.Profile.c13_material",
    "Verif.Profile.c13_totals",
    "Verif.Profile.c13_idempotent"
   ],
   "note": "Under the hypothesis that the half-space has zero thickness."
  },
  {
   "property": "C14",
   "status": "proved",
   "theorems": [
    "Verif.Waves.c14_refine",
    "Verif.Profile.c14_auto_discretize",
    "Verif.Waves.c14_split",
    "Verif.Waves.c14_transfer"
   ],
   "note": ""
  },
  {
   "property": "C15",
   "status": "proved",
   "theorems": [
    "Verif.Profile.c15_pore_pressure",
    "Verif.Profile.c15_effective",
    "Verif.Profile.c15_effective_nonneg",
    "Verif.Profile.c15_mean"
   ],
   "note": ""
  },
  {
   "property": "C16",
   "status": "partial",
   "theorems": [
    "Verif.Profile.c16_copy",
    "Verif.Profile.c16_copy_partial",
    "Verif.Profile.c16_softened_counterexample",
    "Verif.Profile.c16_independent"
   ],
   "note": "Velocities proved equal for layers in their initial state; refuted after a strain-compatible iteration. Independence proved in full."
  },
  {
   "property": "C17",
   "status": "partial",
   "theorems": [
    "Verif.Profile.c17_copy",
    "Verif.Profile.c17_velocity",
    "Verif.Profile.c17_thickness",
    "Verif.Profile.c17_discretize_partial",
    "Verif.Profile.c17_half_space_partial",
    "Verif.Profile.c17_half_space_counterexample",
    "Verif.Profile.c17_soil_type_partial",
    "Verif.Profile.c17_discretize_none"
   ],
   "note": "Proved for copy, velocity and Toro thickness variation; for auto_discretize and vary_profile all attributes except the private back reference; refuted for half-space depth variation."
  },
  {
   "property": "C18",
   "status": "partial",
   "theorems": [
    "Verif.Profile.c18_soil_types_partial",
    "Verif.Profile.c18_duplicate_counterexample"
   ],
   "note": "The set of soil types is right; refuted that each occurs once."
  },
  {
   "property": "C19",
   "status": "proved",
   "theorems": [
    "Verif.Layer.c19_limits",
    "Verif.Layer.c19_defaults"
   ],
   "note": ""
  },
  {
   "property": "C20",
   "status": "proved",
   "theorems": [
    "Verif.Layer.c20_log_linear",
    "Verif.Layer.c20_total",
    "Verif.Layer.c20_floor",
    "Verif.Layer.c20_point",
    "Verif.Layer.c20_between",
    "Verif.Layer.c20_monotone"
   ],
   "note": ""
  },
  {
   "property": "C21",
   "status": "proved",
   "theorems": [
    "Verif.Layer.c21_set_strain",
    "Verif.Layer.c21_small_strain",
    "Verif.Layer.c21_modulus_bounds"
   ],
   "note": ""
  },
  {
   "property": "C22",
   "status": "proved",
   "theorems": [
    "Verif.Layer.c22_modulus",
    "Verif.Layer.c22_velocity"
   ],
   "note": ""
  },
  {
   "property": "C23",
   "status": "proved",
   "theorems": [
    "Verif.Layer.c23_reset",
    "Verif.Layer.c23_values",
    "Verif.Layer.c23_linear",
    "Verif.Layer.c23_idempotent"
   ],
   "note": ""
  },
  {
   "property": "C24",
   "status": "partial",
   "theorems": [
    "Verif.Layer.c24_relative_error_partial",
    "Verif.Layer.c24_not_positive",
    "Verif.Layer.c24_increase_counterexample"
   ],
   "note": "Proved one-sided (no entry decreased by more than the tolerance) for positive values, and closeness in the other case; refuted in general because the error is signed."
  },
  {
   "property": "C25",
   "status": "proved",
   "theorems": [
    "Verif.Waves.c25_displacement",
    "Verif.Waves.c25_stress"
   ],
   "note": "For frequencies above the zero threshold 1e-8 rad/s."
  },
  {
   "property": "C26",
   "status": "proved",
   "theorems": [
    "Verif.Waves.c26_surface"
   ],
   "note": ""
  },
  {
   "property": "C27",
   "status": "proved",
   "theorems": [
    "Verif.Waves.c27_derivative",
    "Verif.Waves.c27_wave_equation"
   ],
   "note": ""
  },
  {
   "property": "C28",
   "status": "proved",
   "theorems": [
    "Verif.Waves.c28_self",
    "Verif.Waves.c28_compose",
    "Verif.Waves.c28_outcrop",
    "Verif.Waves.c28_strain"
   ],
   "note": ""
  },
  {
   "property": "C29",
   "status": "proved",
   "theorems": [
    "Verif.Waves.c29_flux",
    "Verif.Waves.c29_upgoing",
    "Verif.Waves.c29_outcrop"
   ],
   "note": ""
  },
  {
   "property": "C30",
   "status": "proved",
   "theorems": [
    "Verif.Waves.c30_undamped"
   ],
   "note": ""
  },
  {
   "property": "C31",
   "status": "proved",
   "theorems": [
    "Verif.Waves.c31_amplitudes",
    "Verif.Waves.c31_rigid"
   ],
   "note": ""
  },
  {
   "property": "C32",
   "status": "proved",
   "theorems": [
    "Verif.Waves.c32_kernels",
    "Verif.Waves.c32_threshold"
   ],
   "note": "With the exception at exactly 1e-8 rad/s, proved as c32_threshold. Exact arithmetic; non-zero velocities."
  },
  {
   "property": "C33",
   "status": "proved",
   "theorems": [
    "Verif.Waves.c33_uniform",
    "Verif.Waves.c33_transfer"
   ],
   "note": ""
  },
  {
   "property": "C34",
   "status": "proved",
   "theorems": [
    "Verif.Eql.c34_terminates",
    "Verif.Eql.c34_iterations",
    "Verif.Eql.c34_outcome"
   ],
   "note": ""
  },
  {
   "property": "C35",
   "status": "proved",
   "theorems": [
    "Verif.Eql.c35_limit",
    "Verif.Eql.c35_raises_iff",
    "Verif.Eql.c35_limited_iff",
    "Verif.Eql.c35_no_limit",
    "Verif.Eql.c35_raises"
   ],
   "note": ""
  },
  {
   "property": "C36",
   "status": "proved",
   "theorems": [
    "Verif.Eql.c36_linear"
   ],
   "note": ""
  },
  {
   "property": "C37",
   "status": "partial",
   "theorems": [
    "Verif.Eql.c37_early",
    "Verif.Eql.c37_converged_partial",
    "Verif.Eql.c37_half_space",
    "Verif.Eql.c37_increase_counterexample",
    "Verif.Eql.c37_fresh"
   ],
   "note": "Proved one-sided: early return means the last iteration converged and no property decreased by more than the tolerance; refuted for increases. A nonlinear half-space that prevents convergence is proved to do so for ever."
  },
  {
   "property": "C38",
   "status": "proved",
   "theorems": [
    "Verif.Eql.c38_definition",
    "Verif.Eql.c38_linear",
    "Verif.Eql.c38_kept",
    "Verif.Eql.c38_history",
    "Verif.Eql.c38_no_reset_counterexample"
   ],
   "note": "For reset_layers=True (the default); a counterexample shows the dependence with reset_layers=False, which the statement excludes."
  },
  {
   "property": "C39",
   "status": "proved",
   "theorems": [
    "Verif.Eql.c39_ka02",
    "Verif.Eql.c39_zr15",
    "Verif.Eql.c39_zr15_attained",
    "Verif.Eql.c39_ko",
    "Verif.Eql.c39_ko_attained",
    "Verif.Eql.c39_ko_antitone",
    "Verif.Eql.c39_length",
    "Verif.Fdm.c39_ka02_fit"
   ],
   "note": "The fit (ka02) and the smoothing (ko) are parameters of the model."
  },
  {
   "property": "C40",
   "status": "proved",
   "theorems": [
    "Verif.Qwl.c40_integral",
    "Verif.Qwl.c40_bounds",
    "Verif.Qwl.c40_uniform"
   ],
   "note": ""
  },
  {
   "property": "C41",
   "status": "partial",
   "theorems": [
    "Verif.Qwl.c41_ok_iff",
    "Verif.Qwl.c41_error_iff",
    "Verif.Qwl.c41_result",
    "Verif.Qwl.c41_positive_partial",
    "Verif.Qwl.c41_uniform",
    "Verif.Qwl.c41_method",
    "Verif.Qwl.c41_ba23_exponent",
    "Verif.Qwl.c41_ba23_values",
    "Verif.Qwl.c41_ba23_counterexample"
   ],
   "note": "Positivity is proved for the standard method and wherever the result is not nan. Refuted for 'ba23': at 10 ** -2.699 of the lowest resonance frequency the exponent is a power of a negative number, nan. All else is proved."
  },
  {
   "property": "C42",
   "status": "partial",
   "theorems": [
    "Verif.Motion.c42_power",
    "Verif.Motion.c42_frequencies",
    "Verif.Motion.c42_nyquist",
    "Verif.Motion.c42_even",
    "Verif.Motion.c42_odd_counterexample",
    "Verif.Motion.c42_single_sample",
    "Verif.Motion.c42_times",
    "Verif.Motion.c42_amplitude"
   ],
   "note": "Length agreement proved for even Fourier lengths, refuted for odd lengths (odd fa_length, records of at most one sample)."
  },
  {
   "property": "C43",
   "status": "proved",
   "theorems": [
    "Verif.Motion.c43_identity",
    "Verif.Motion.c43_padded",
    "Verif.Motion.c43_default",
    "Verif.Motion.c43_constant",
    "Verif.Motion.c43_additive",
    "Verif.Motion.c43_mismatch"
   ],
   "note": "For even Fourier lengths of at least 2; the discrete Fourier transform is defined, and its inversion proved, in the model."
  },
  {
   "property": "C44",
   "status": "proved",
   "theorems": [
    "Verif.Motion.c44_peak_zero",
    "Verif.Motion.c44_nonneg",
    "Verif.Motion.c44_scale",
    "Verif.Motion.c44_scale_constant",
    "Verif.Motion.c44_zero",
    "Verif.Motion.c44_record",
    "Verif.Motion.c44_motion_scale",
    "Verif.Motion.c44_values"
   ],
   "note": ""
  },
  {
   "property": "C45",
   "status": "proved",
   "theorems": [
    "Verif.Motion.c45_defined",
    "Verif.Motion.c45_static",
    "Verif.Motion.c45_resonance",
    "Verif.Motion.c45_stiff",
    "Verif.Motion.c45_magnitude",
    "Verif.Motion.c45_spectrum"
   ],
   "note": ""
  },
  {
   "property": "C46",
   "status": "partial",
   "theorems": [
    "Verif.Output.c46_values",
    "Verif.Output.c46_read_back",
    "Verif.Output.c46_fixed",
    "Verif.Output.c46_refs_partial",
    "Verif.Output.c46_refs_counterexample"
   ],
   "note": "Values proved in full; references proved when no recorded reference array is empty, refuted otherwise."
  },
  {
   "property": "C47",
   "status": "proved",
   "theorems": [
    "Verif.Output.c47_names",
    "Verif.Output.c47_distinct",
    "Verif.Output.c47_reset"
   ],
   "note": ""
  },
  {
   "property": "C48",
   "status": "partial",
   "theorems": [
    "Verif.Output.c48_counterexample",
    "Verif.Output.c48_shift_counterexample",
    "Verif.Output.c48_profile_counterexample",
    "Verif.Output.c48_partial"
   ],
   "note": "Values always unchanged, references unchanged except for profile outputs, at most one name added; refuted that the names are unchanged."
  },
  {
   "property": "C49",
   "status": "partial",
   "theorems": [
    "Verif.Output.c49_values",
    "Verif.Output.c49_monotone",
    "Verif.Output.c49_last",
    "Verif.Output.c49_times_counterexample",
    "Verif.Output.c49_shift"
   ],
   "note": "Monotonicity and final value proved; the association with times is refuted and proved to be shifted by one step."
  },
  {
   "property": "C50",
   "status": "partial",
   "theorems": [
    "Verif.Output.c50_cases",
    "Verif.Output.c50_row",
    "Verif.Output.c50_bounds",
    "Verif.Output.c50_order",
    "Verif.Output.c50_equal",
    "Verif.Output.c50_scale",
    "Verif.Output.c50_missing",
    "Verif.Output.c50_single_counterexample",
    "Verif.Output.c50_table_partial",
    "Verif.Output.c50_none"
   ],
   "note": "All statements proved for at least two recorded arrays; calc_stats is refuted for a single one (raises)."
  },
  {
   "property": "C51",
   "status": "proved",
   "theorems": [
    "Verif.Profile.c51_layers",
    "Verif.Profile.c51_refuses",
    "Verif.Variation.c51_inverse",
    "Verif.Variation.c51_thickness",
    "Verif.Variation.c51_terminates",
    "Verif.Variation.c51_profile"
   ],
   "note": ""
  },
  {
   "property": "C52",
   "status": "proved",
   "theorems": [
    "Verif.Profile.c52_half_space_depth"
   ],
   "note": ""
  },
  {
   "property": "C53",
   "status": "proved",
   "theorems": [
    "Verif.Profile.c53_layers",
    "Verif.Variation.c53_bounds",
    "Verif.Variation.c53_inside",
    "Verif.Variation.c53_profile"
   ],
   "note": ""
  },
  {
   "property": "C54",
   "status": "partial",
   "theorems": [
    "Verif.Variation.c54_length",
    "Verif.Variation.c54_range",
    "Verif.Variation.c54_covar",
    "Verif.Variation.c54_psd_counterexample"
   ],
   "note": "Range, count, symmetry and the bound by the product of standard deviations proved; positive semidefiniteness refuted."
  },
  {
   "property": "C55",
   "status": "proved",
   "theorems": [
    "Verif.Variation.c55_limits",
    "Verif.Variation.c55_spid_mod_order",
    "Verif.Variation.c55_spid_mod_draw",
    "Verif.Variation.c55_spid_mod_zero",
    "Verif.Variation.c55_spid_damp",
    "Verif.Variation.c55_darendeli_std",
    "Verif.Variation.c55_darendeli_values",
    "Verif.Variation.c55_spid_values"
   ],
   "note": ""
  },
  {
   "property": "C56",
   "status": "proved",
   "theorems": [
    "Verif.Variation.c56_validation",
    "Verif.Variation.c56_rejects",
    "Verif.Variation.c56_index_needed",
    "Verif.Variation.c56_limit",
    "Verif.Variation.c56_deterministic",
    "Verif.Variation.c56_indices",
    "Verif.Variation.c56_balanced"
   ],
   "note": ""
  },
  {
   "property": "C57",
   "status": "proved",
   "theorems": [
    "Verif.Profile.c57_same_iff",
    "Verif.Profile.c57_vary_profile",
    "Verif.Profile.c57_empty"
   ],
   "note": ""
  },
  {
   "property": "C58",
   "status": "proved",
   "theorems": [
    "Verif.Tools.c58_inverse",
    "Verif.Tools.c58_length",
    "Verif.Tools.c58_exhausted",
    "Verif.Tools.c58_trimmed_counterexample"
   ],
   "note": ""
  },
  {
   "property": "C59",
   "status": "partial",
   "theorems": [
    "Verif.Tools.c59_blocks_partial",
    "Verif.Tools.c59_last_block_counterexample",
    "Verif.Tools.c59_option_line"
   ],
   "note": "All blocks but the last are proved to be processed in order; refuted that the last one is."
  },
  {
   "property": "C60",
   "status": "partial",
   "theorems": [
    "Verif.Tools.c60_never_english_counterexample",
    "Verif.Tools.c60_conversion_counterexample",
    "Verif.Tools.c60_unscaled_partial"
   ],
   "note": "Refuted: the units never compare equal to english, and the conversion would raise; proved that the result does not depend on the units line otherwise."
  },
  {
   "property": "C61",
   "status": "proved",
   "theorems": [
    "Verif.Tools.c61_damping",
    "Verif.Tools.c61_bounds",
    "Verif.Tools.c61_layers"
   ],
   "note": ""
  },
  {
   "property": "C62",
   "status": "proved",
   "theorems": [
    "Verif.Tools.c62_value",
    "Verif.Tools.c62_empty",
    "Verif.Tools.c62_agrees"
   ],
   "note": ""
  },
  {
   "property": "C63",
   "status": "partial",
   "theorems": [
    "Verif.Tools.c63_reached",
    "Verif.Tools.c63_attained_partial",
    "Verif.Tools.c63_none",
    "Verif.Tools.c63_inverse",
    "Verif.Tools.c63_errors",
    "Verif.Tools.c63_interior_counterexample",
    "Verif.Tools.c63_bottom_counterexample",
    "Verif.Tools.c63_single_counterexample"
   ],
   "note": "Attained attenuation characterized for every selection; equality proved for contiguous selections down to a layer without thickness, refuted for interior exclusions, an excluded half-space and a single selected layer."
  },
  {
   "property": "C64",
   "status": "partial",
   "theorems": [
    "Verif.Props.c64_partition",
    "Verif.Props.c64_members",
    "Verif.Props.c64_maximal",
    "Verif.Props.c64_velocity",
    "Verif.Props.c64_within",
    "Verif.Props.c64_weight",
    "Verif.Props.c64_lost_partial",
    "Verif.Props.c64_travel_time_partial",
    "Verif.Props.c64_halfspace_counterexample",
    "Verif.Props.c64_load",
    "Verif.Props.c64_refuses"
   ],
   "note": "Grouping, velocities and travel time of the groups proved; the exact loss of travel time is proved, it is zero when the half-space differs from every layer; preservation refuted when the half-space is merged."
  },
  {
   "property": "C65",
   "status": "partial",
   "theorems": [
    "Verif.Props.c65_accepts_partial",
    "Verif.Props.c65_region_counterexample",
    "Verif.Props.c65_velocity",
    "Verif.Props.c65_values"
   ],
   "note": "Value at the surface and monotonicity proved for both regions; the documented capitalized names are refuted."
  },
  {
   "property": "C67",
   "status": "proved",
   "theorems": [
    "Verif.Props.c67_monotone",
    "Verif.Props.c67_bound",
    "Verif.Props.c67_shift",
    "Verif.Props.c67_no_nan",
    "Verif.Props.c67_zero"
   ],
   "note": ""
  },
  {
   "property": "C68",
   "status": "proved",
   "theorems": [
    "Verif.Props.c68_level",
    "Verif.Props.c68_levels",
    "Verif.Props.c68_unknown",
    "Verif.Props.c68_unknown_model",
    "Verif.Props.c68_uses",
    "Verif.Props.c68_damping_none"
   ],
   "note": ""
  },
  {
   "property": "C69",
   "status": "partial",
   "theorems": [
    "Verif.Props.c69_no_percent_partial",
    "Verif.Props.c69_constructor",
    "Verif.Props.c69_constructor_error",
    "Verif.Props.c69_counterexample",
    "Verif.Props.c69_percent"
   ],
   "note": "Refuted for sand with fines; proved without percent quantities and for every curve built by the constructor."
  },
  {
   "property": "C70",
   "status": "proved",
   "theorems": [
    "Verif.Waves.c70_solution",
    "Verif.Waves.c70_unique"
   ],
   "note": ""
  },
  {
   "property": "C71",
   "status": "proved",
   "theorems": [
    "Verif.Qwl.c71_cycle_counterexample",
    "Verif.Qwl.c71_converges"
   ],
   "note": "The cycle for a velocity inversion is proved as c71_cycle_counterexample; the convergence statement excludes it."
  },
  {
   "property": "C72",
   "status": "proved",
   "theorems": [
    "Verif.Motion.c72_constant",
    "Verif.Motion.c72_alternating",
    "Verif.Motion.c72_velocity",
    "Verif.Motion.c72_antiderivative"
   ],
   "note": ""
  },
  {
   "property": "C73",
   "status": "partial",
   "theorems": [
    "Verif.Output.c73_layer_value",
    "Verif.Output.c73_ends",
    "Verif.Output.c73_mid_counterexample",
    "Verif.Output.c73_single_counterexample",
    "Verif.Output.c73_stats",
    "Verif.Output.c73_table"
   ],
   "note": "Proved for velocity, damping and modulus reduction; refuted for maximum strain and cyclic stress ratio (values of the next layer in the lower half of a layer), and for a single result (raises)."
  },
  {
   "property": "C74",
   "status": "partial",
   "theorems": [
    "Verif.Variation.c74_equal_spacing_partial",
    "Verif.Variation.c74_distance_counterexample"
   ],
   "note": "Proved for equally spaced mid-depths; refuted in general."
  },
  {
   "property": "C75",
   "status": "proved",
   "theorems": [
    "Verif.Variation.c75_mod_order",
    "Verif.Variation.c75_damp_order",
    "Verif.Variation.c75_unclipped"
   ],
   "note": ""
  },
  {
   "property": "C76",
   "status": "partial",
   "theorems": [
    "Verif.Variation.c76_sign_partial",
    "Verif.Variation.c76_sign_counterexample"
   ],
   "note": "Proved for non-negative correlations and those at most -1/sqrt(2); refuted in between."
  },
  {
   "property": "C77",
   "status": "partial",
   "theorems": [
    "Verif.Variation.c77_in_range_partial",
    "Verif.Variation.c77_cycle_counterexample"
   ],
   "note": "Proved for indices within the list; refuted beyond it (IndexError)."
  },
  {
   "property": "C78",
   "status": "partial",
   "theorems": [
    "Verif.Variation.c78_exceeds",
    "Verif.Variation.c78_range_partial",
    "Verif.Variation.c78_range_counterexample"
   ],
   "note": "Range limit/sqrt(v) proved; the documented range +-limit is refuted."
  },
  {
   "property": "C79",
   "status": "proved",
   "theorems": [
    "Verif.Variation.c79_map"
   ],
   "note": ""
  },
  {
   "property": "C80",
   "status": "partial",
   "theorems": [
    "Verif.Tools.c80_error_kind",
    "Verif.Tools.c80_location_first",
    "Verif.Tools.c80_short",
    "Verif.Tools.c80_profile_first",
    "Verif.Tools.c80_options_counterexample",
    "Verif.Tools.c80_load_partial"
   ],
   "note": "Proved for options 1-3 followed by one more block; refuted for options 4-9 before the last block."
  },
  {
   "property": "C81",
   "status": "proved",
   "theorems": [
    "Verif.Tools.c81_no_other",
    "Verif.Tools.c81_curves",
    "Verif.Tools.c81_name"
   ],
   "note": ""
  },
  {
   "property": "C82",
   "status": "proved",
   "theorems": [
    "Verif.Tools.c82_missing_curve",
    "Verif.Tools.c82_profile",
    "Verif.Tools.c82_water_table"
   ],
   "note": ""
  },
  {
   "property": "C83",
   "status": "proved",
   "theorems": [
    "Verif.Tools.c83_smc"
   ],
   "note": ""
  },
  {
   "property": "C66",
   "status": "partial",
   "theorems": [
    "Verif.Props.c66_hyperbolic",
    "Verif.Props.c66_table",
    "Verif.Props.c66_darendeli",
    "Verif.Props.c66_menq_partial",
    "Verif.Props.c66_menq_counterexample",
    "Verif.Props.c66_rollins",
    "Verif.Props.c66_two_param_partial",
    "Verif.Props.c66_two_param_coeffs",
    "Verif.Props.c66_two_param_counterexample",
    "Verif.Props.c66_alemu",
    "Verif.Props.c66_damping_min"
   ],
   "note": "Refuted for the default two-parameter model above 438/7 atm and for Menq soils below 10^-8.6 atm; proved for all other stresses and for the other models."
  },
  {
   "property": "C84",
   "status": "proved",
   "theorems": [
    "Verif.Props.c84_two_param",
    "Verif.Props.c84_two_param_default",
    "Verif.Props.c84_alemu"
   ],
   "note": ""
  },
  {
   "property": "C85",
   "status": "proved",
   "theorems": [
    "Verif.Props.c85_masing_range",
    "Verif.Props.c85_correction",
    "Verif.Props.c85_above_min",
    "Verif.Props.c85_darendeli",
    "Verif.Props.c85_rollins",
    "Verif.Props.c85_menq",
    "Verif.Props.c85_masing_increases"
   ],
   "note": ""
  },
  {
   "property": "C87",
   "status": "partial",
   "theorems": [
    "Verif.Props.c87_at2_partial",
    "Verif.Props.c87_new_header_counterexample",
    "Verif.Props.c87_errors"
   ],
   "note": "Proved for headers whose second word is the time step; refuted for NPTS=, DT= headers."
  },
  {
   "property": "C88",
   "status": "partial",
   "theorems": [
    "Verif.Props.c88_nrattle_partial",
    "Verif.Props.c88_errors",
    "Verif.Props.c88_no_layers",
    "Verif.Props.c88_table_errors",
    "Verif.Props.c88_bad_layer_counterexample",
    "Verif.Props.c88_integer_velocity_counterexample",
    "Verif.Props.c88_numbering_counterexample"
   ],
   "note": "Proved for well-formed files with a non-integer half-space velocity and no layer numbered len+1; refuted in each of the three other cases."
  },
  {
   "property": "C89",
   "status": "proved",
   "theorems": [
    "Verif.Props.c89_setters",
    "Verif.Props.c89_call",
    "Verif.Props.c89_columns"
   ],
   "note": ""
  },
  {
   "property": "C90",
   "status": "partial",
   "theorems": [
    "Verif.Props.c90_unequal_lengths_counterexample",
    "Verif.Props.c90_empty",
    "Verif.Props.c90_call_partial",
    "Verif.Props.c90_defaults_counterexample"
   ],
   "note": "Proved for arrays of equal length; refuted for unequal lengths (silently linear) and for the default arguments (IndexError)."
  },
  {
   "property": "C91",
   "status": "partial",
   "theorems": [
    "Verif.Props.c91_order_partial",
    "Verif.Props.c91_order_counterexample"
   ],
   "note": "Proved between the smallest and largest tabulated strain; refuted outside."
  },
  {
   "property": "C92",
   "status": "partial",
   "theorems": [
    "Verif.Props.c92_names",
    "Verif.Props.c92_tables",
    "Verif.Props.c92_values",
    "Verif.Props.c92_monotone_counterexample",
    "Verif.Props.c92_damping_min_counterexample",
    "Verif.Props.c92_monotone_partial",
    "Verif.Props.c92_lookup",
    "Verif.Props.c92_lookup_ok",
    "Verif.Props.c92_soil_counterexample",
    "Verif.Props.c92_soil_partial"
   ],
   "note": "Names, tables and values proved for all models; monotonicity and soil types proved for all but the listed models and refuted for these."
  },
  {
   "property": "C93",
   "status": "proved",
   "theorems": [
    "Verif.Profile.c93_bounds",
    "Verif.Profile.c93_halfspace",
    "Verif.Profile.c93_scale_vel",
    "Verif.Profile.c93_scale_depth"
   ],
   "note": ""
  },
  {
   "property": "C94",
   "status": "partial",
   "theorems": [
    "Verif.Profile.c94_uniform_counterexample",
    "Verif.Profile.c94_split_counterexample",
    "Verif.Profile.c94_uniform_partial"
   ],
   "note": "Refuted for one and two layers; proved that every layering gives between v and 4v/pi."
  },
  {
   "property": "C95",
   "status": "proved",
   "theorems": [
    "Verif.DataFrame.c95_from_dataframe",
    "Verif.DataFrame.c95_missing_column"
   ],
   "note": ""
  },
  {
   "property": "C96",
   "status": "partial",
   "theorems": [
    "Verif.DataFrame.c96_to_dataframe",
    "Verif.DataFrame.c96_round_trip_counterexample",
    "Verif.DataFrame.c96_renamed_partial"
   ],
   "note": "Contents of the table proved; reading back refuted (KeyError); recovered with one column renamed."
  },
  {
   "property": "C97",
   "status": "partial",
   "theorems": [
    "Verif.Fdm.c97_terminates",
    "Verif.Fdm.c97_iterations",
    "Verif.Fdm.c97_outcome",
    "Verif.Fdm.c97_early",
    "Verif.Fdm.c97_limited_iff",
    "Verif.Fdm.c97_no_limit",
    "Verif.Fdm.c97_iterates",
    "Verif.Fdm.c97_converged_partial",
    "Verif.Fdm.c97_slices",
    "Verif.Fdm.c97_estimate",
    "Verif.Names.c97_estimate_tolerance"
   ],
   "note": "All proved except that convergence bounds increases of the properties, which is false (c24_increase_counterexample); the bound on decreases is c97_converged_partial."
  },
  {
   "property": "C98",
   "status": "proved",
   "theorems": [
    "Verif.Fdm.c98_limit",
    "Verif.Fdm.c98_effective",
    "Verif.Fdm.c98_stiffer",
    "Verif.Fdm.c98_ka02_average",
    "Verif.Fdm.c98_strain_slices",
    "Verif.Fdm.c98_same_peak"
   ],
   "note": ""
  },
  {
   "property": "C99",
   "status": "proved",
   "theorems": [
    "Verif.Fdm.c99_linear"
   ],
   "note": ""
  },
  {
   "property": "C100",
   "status": "proved",
   "theorems": [
    "Verif.Fdm.c100_definition",
    "Verif.Fdm.c100_kept",
    "Verif.Fdm.c100_history"
   ],
   "note": ""
  },
  {
   "property": "C101",
   "status": "proved",
   "theorems": [
    "Verif.OutputValues.c101_complex",
    "Verif.OutputValues.c101_complex_absolute",
    "Verif.OutputValues.c101_accel_input",
    "Verif.OutputValues.c101_accel_record",
    "Verif.OutputValues.c101_fourier",
    "Verif.OutputValues.c101_fourier_input",
    "Verif.OutputValues.c101_transfer_self",
    "Verif.OutputValues.c101_transfer_compose",
    "Verif.OutputValues.c101_fourier_transfer",
    "Verif.OutputValues.c101_response_input",
    "Verif.OutputValues.c101_response_nonneg",
    "Verif.OutputValues.c101_ratio_self",
    "Verif.OutputValues.c101_ratio",
    "Verif.OutputValues.c101_scale"
   ],
   "note": ""
  },
  {
   "property": "C102",
   "status": "proved",
   "theorems": [
    "Verif.OutputValues.c102_within",
    "Verif.OutputValues.c102_percent",
    "Verif.OutputValues.c102_undamped",
    "Verif.OutputValues.c102_normalized",
    "Verif.OutputValues.c102_interface",
    "Verif.OutputValues.c102_surface",
    "Verif.OutputValues.c102_peak"
   ],
   "note": ""
  },
  {
   "property": "C103",
   "status": "proved",
   "theorems": [
    "Verif.Eql.c103_mid_strain",
    "Verif.Eql.c103_effective",
    "Verif.Eql.c103_strains",
    "Verif.Eql.c103_start",
    "Verif.Eql.c103_strain_ratio"
   ],
   "note": ""
  },
  {
   "property": "C104",
   "status": "partial",
   "theorems": [
    "Verif.Atten.c104_fit",
    "Verif.Atten.c104_nonneg",
    "Verif.Atten.c104_uniform_partial",
    "Verif.Atten.c104_default_freqs",
    "Verif.Atten.c104_empty",
    "Verif.Atten.c104_uniform_counterexample",
    "Verif.Atten.c104_undamped"
   ],
   "note": "Refuted for damped uniform profiles (c104_uniform_counterexample): the attenuation of the transfer function is sin(phi/2) with sin(phi) = 2 D while the attenuation due to damping uses D, so a positive scattering attenuation is returned. Proved: the result is non-negative, the fitted line is the least-squares line, the exact value for uniform profiles, at most 2 D^2 of the attenuation due to damping, and 0 without damping."
  },
  {
   "property": "C105",
   "status": "proved",
   "theorems": [
    "Verif.Profile.c105_draws",
    "Verif.Profile.c105_frame",
    "Verif.Profile.c105_seed",
    "Verif.Profile.c105_kept",
    "Verif.Profile.c105_disjoint",
    "Verif.Profile.c105_count",
    "Verif.Profile.c105_percentiles"
   ],
   "note": ""
  },
  {
   "property": "C106",
   "status": "partial",
   "theorems": [
    "Verif.Tools.c106_format",
    "Verif.Tools.c106_format_found",
    "Verif.Tools.c106_format_none",
    "Verif.Tools.c106_rows",
    "Verif.Tools.c106_factor",
    "Verif.Tools.c106_pga",
    "Verif.Tools.c106_refused",
    "Verif.Tools.c106_no_factor",
    "Verif.Tools.c106_motion",
    "Verif.Tools.c106_series_partial",
    "Verif.Tools.c106_table_counterexample",
    "Verif.Tools.c106_short_counterexample"
   ],
   "note": "Refuted for records of two or more lines with several values (c106_table_counterexample: np.genfromtxt gives a two-dimensional array, which TimeSeriesMotion then transforms line by line) and for records whose last line is not full (c106_short_counterexample: NaN, and NaN everywhere when scaled to a peak). Proved: the format, the rows, the factor and the peak after scaling, the fields of the block, and the series for records in one line or with one value per line."
  },
  {
   "property": "C107",
   "status": "partial",
   "theorems": [
    "Verif.Qwl.c107_layers",
    "Verif.Qwl.c107_velocity",
    "Verif.Qwl.c107_search",
    "Verif.Qwl.c107_thickness",
    "Verif.Qwl.c107_stored",
    "Verif.Qwl.c107_atten",
    "Verif.Qwl.c107_target",
    "Verif.Qwl.c107_improves_partial",
    "Verif.Qwl.c107_thickness_counterexample",
    "Verif.Qwl.c107_no_atten",
    "Verif.Qwl.c107_raises",
    "Verif.Qwl.c107_no_layers",
    "Verif.Qwl.c107_atten_counterexample"
   ],
   "note": "Proved for the bounds, layers and stored amplification for any optimiser that keeps its bounds; the improvement is proved with the attenuation of the minimum and if nothing divided by is zero. The claim fails for adjust_site_atten (the calculator keeps the attenuation of the last evaluation of the error, c107_atten_counterexample) and for adjust_thickness with a layer of no thickness such as the half-space (the error is not finite anywhere, c107_thickness_counterexample). scipy's minimize is a parameter."
  },
  {
   "property": "C108",
   "status": "partial",
   "theorems": [
    "Verif.Variation.c108_unknown",
    "Verif.Variation.c108_generic",
    "Verif.Variation.c108_correlation",
    "Verif.Variation.c108_published",
    "Verif.Variation.c108_class",
    "Verif.Variation.c108_every_velocity",
    "Verif.Variation.c108_depth",
    "Verif.Variation.c108_depth_std",
    "Verif.Variation.c108_ln_std_counterexample",
    "Verif.Variation.c108_depth_only_counterexample"
   ],
   "note": "Proved for ToroVelocityVariation and, for the depth-dependent model, if both depth and ln_std are given or neither. Fails if only ln_std is given (silently replaced by [0.25, 0.15], c108_ln_std_counterexample) and if only depth is given (the scalar ln_std of the table is later indexed, TypeError, c108_depth_only_counterexample)."
  },
  {
   "property": "C109",
   "status": "partial",
   "theorems": [
    "Verif.OutputValues.c109_transfer",
    "Verif.OutputValues.c109_bounds",
    "Verif.OutputValues.c109_input",
    "Verif.OutputValues.c109_unknown",
    "Verif.OutputValues.c109_normalized",
    "Verif.OutputValues.c109_depths",
    "Verif.OutputValues.c109_limits_counterexample",
    "Verif.OutputValues.c109_limits_partial",
    "Verif.OutputValues.c109_no_depths"
   ],
   "note": "Values proved for both metrics and for normalization. The limits of the depth axis are (depths[0], 0): with the default depths, which start at the surface, both limits are 0 for every profile (c109_limits_counterexample); they are right only for depths given from the bottom upwards (c109_limits_partial). Drawing by matplotlib is not modelled."
  },
  {
   "property": "C110",
   "status": "proved",
   "theorems": [
    "Verif.Layer.c110_adjusted",
    "Verif.Layer.c110_adjusted_interp",
    "Verif.Layer.c110_adjusted_number",
    "Verif.Layer.c110_strain",
    "Verif.Layer.c110_velocity",
    "Verif.Layer.c110_outputs",
    "Verif.Layer.c110_csr",
    "Verif.Layer.c110_csr_needs_strain",
    "Verif.Layer.c110_half_space"
   ],
   "note": "Scalar properties (linear-elastic and equivalent-linear analyses)."
  },
  {
   "property": "C111",
   "status": "partial",
   "theorems": [
    "Verif.Output.c111_fixed",
    "Verif.Output.c111_none",
    "Verif.Output.c111_failed_counterexample",
    "Verif.Output.c111_entry",
    "Verif.Output.c111_surface",
    "Verif.Output.c111_profile",
    "Verif.Output.c111_single_counterexample",
    "Verif.Output.c111_profile_none",
    "Verif.Output.c111_shape"
   ],
   "note": "Proved for histories of successful calls and for two or more profile results; refuted for a single profile result and after a call that raised. Names are texts (no tuples); the rules of pd.DataFrame are written out from its documentation."
  },
  {
   "property": "C112",
   "status": "proved",
   "theorems": [
    "Verif.Waves.c112_closed_form",
    "Verif.Waves.c112_bounds",
    "Verif.Waves.c112_increasing",
    "Verif.Waves.c112_resonance"
   ],
   "note": ""
  },
  {
   "property": "C113",
   "status": "partial",
   "theorems": [
    "Verif.SoilVary.c113_layer",
    "Verif.SoilVary.c113_small_strain",
    "Verif.SoilVary.c113_linear",
    "Verif.SoilVary.c113_values",
    "Verif.SoilVary.c113_mod_limits",
    "Verif.SoilVary.c113_spid_increment",
    "Verif.SoilVary.c113_limits_partial",
    "Verif.SoilVary.c113_limits_counterexample"
   ],
   "note": "Everything proved except the damping limit, which is refuted with the default SPID settings; the proved bound is shifted by the difference between the minimum damping of the layer and the varied small-strain damping."
  },
  {
   "property": "C114",
   "status": "proved",
   "theorems": [
    "Verif.Waves.c114_balance",
    "Verif.Waves.c114_reflected",
    "Verif.Waves.c114_within_outcrop",
    "Verif.Waves.c114_strict",
    "Verif.Waves.c114_damped_bedrock",
    "Verif.Waves.c114_site"
   ],
   "note": ""
  },
  {
   "property": "C116",
   "status": "proved",
   "theorems": [
    "Verif.SoilTypes.c116_darendeli_strain",
    "Verif.SoilTypes.c116_darendeli_damping",
    "Verif.SoilTypes.c116_scaling",
    "Verif.SoilTypes.c116_menq_strain",
    "Verif.SoilTypes.c116_menq_damping",
    "Verif.SoilTypes.c116_rollins_strain",
    "Verif.SoilTypes.c116_two_param",
    "Verif.SoilTypes.c116_two_param_damping",
    "Verif.SoilTypes.c116_alemu_strain",
    "Verif.SoilTypes.c116_alemu_modulus",
    "Verif.SoilTypes.c116_alemu_damping_min",
    "Verif.SoilTypes.c116_alemu_damping_strain",
    "Verif.SoilTypes.c116_alemu_damping",
    "Verif.SoilTypes.c116_masing",
    "Verif.SoilTypes.c116_correction",
    "Verif.SoilTypes.c116_kishida_organic",
    "Verif.SoilTypes.c116_kishida_strain",
    "Verif.SoilTypes.c116_kishida_modulus",
    "Verif.SoilTypes.c116_kishida_reduction",
    "Verif.SoilTypes.c116_kishida_damping",
    "Verif.SoilTypes.c116_kishida_unit_wt",
    "Verif.SoilTypes.c116_kishida_curves"
   ],
   "note": ""
  },
  {
   "property": "C117",
   "status": "partial",
   "theorems": [
    "Verif.Output.c117_raises",
    "Verif.Output.c117_each",
    "Verif.Output.c117_independent_partial",
    "Verif.Output.c117_in_step_partial",
    "Verif.Output.c117_reset",
    "Verif.Output.c117_counterexample"
   ],
   "note": "Refuted after an exception (c117_counterexample: an acceleration time series output with an RVT motion); proved for histories without exceptions. The effect of an exception on each output and the reset after any history are proved too."
  },
  {
   "property": "C118",
   "status": "proved",
   "theorems": [
    "Verif.Waves.c118_amplitudes",
    "Verif.Waves.c118_accel",
    "Verif.Waves.c118_strain",
    "Verif.Eql.c118_eql",
    "Verif.Eql.c118_eql_done",
    "Verif.Eql.c118_linear",
    "Verif.Motion.c118_motion"
   ],
   "note": "Frequencies for which np.isclose(w, 0) holds in only one of the two analyses are excluded."
  },
  {
   "property": "C119",
   "status": "partial",
   "theorems": [
    "Verif.Eql.c119_curve",
    "Verif.Eql.c119_layer",
    "Verif.Eql.c119_weak",
    "Verif.Eql.c119_linear_partial",
    "Verif.Eql.c119_limit",
    "Verif.Eql.c119_empirical_counterexample"
   ],
   "note": "Refuted for the modified hyperbolic soil types, whose modulus reduction at the first tabulated strain is below 1 (c119_empirical_counterexample); proved in the form with the first tabulated values, and as stated for curves that start at 1."
  },
  {
   "property": "C120",
   "status": "partial",
   "theorems": [
    "Verif.Tools.c120_names",
    "Verif.Tools.c120_others",
    "Verif.Tools.c120_documented_partial",
    "Verif.Tools.c120_kept",
    "Verif.Tools.c120_empty",
    "Verif.Tools.c120_counterexample"
   ],
   "note": "The documented meaning of a list is refuted (c120_counterexample); what the code does is proved in full, the documented meaning for lists without partial matches."
  },
  {
   "property": "C121",
   "status": "proved",
   "theorems": [
    "Verif.Motion.c121_convolution",
    "Verif.Motion.c121_energy",
    "Verif.Motion.c121_energy_ge",
    "Verif.Motion.c121_superposition",
    "Verif.Motion.c121_delay",
    "Verif.Motion.c121_peak",
    "Verif.Motion.c121_surface",
    "Verif.Motion.c121_base"
   ],
   "note": "For even Fourier lengths, which powers of two above one are."
  },
  {
   "property": "C122",
   "status": "proved",
   "theorems": [
    "Verif.Waves.c122_within",
    "Verif.Waves.c122_strain",
    "Verif.Waves.c122_site",
    "Verif.Waves.c122_top",
    "Verif.Waves.c122_bound",
    "Verif.Waves.c122_resonance",
    "Verif.Waves.c122_undamped"
   ],
   "note": "That undamped layers divide by zero is c122_undamped."
  },
  {
   "property": "C123",
   "status": "proved",
   "theorems": [
    "Verif.Waves.c123_amplitudes",
    "Verif.Waves.c123_transfer",
    "Verif.Waves.c123_inside"
   ],
   "note": "In exact arithmetic."
  },
  {
   "property": "C124",
   "status": "proved",
   "theorems": [
    "Verif.Waves.c124_within",
    "Verif.Waves.c124_difference",
    "Verif.Waves.c124_rigid",
    "Verif.Waves.c124_site"
   ],
   "note": ""
  },
  {
   "property": "C125",
   "status": "partial",
   "theorems": [
    "Verif.Waves.c125_amplitudes",
    "Verif.Waves.c125_accel",
    "Verif.Waves.c125_stress",
    "Verif.Waves.c125_site",
    "Verif.Waves.c125_static_counterexample"
   ],
   "note": "Proved for stiff sites at a fixed frequency; refuted for the zero frequency, where strains are set to zero (c125_static_counterexample)."
  },
  {
   "property": "C126",
   "status": "proved",
   "theorems": [
    "Verif.Waves.c126_size",
    "Verif.Waves.c126_undamped"
   ],
   "note": ""
  },
  {
   "property": "C127",
   "status": "partial",
   "theorems": [
    "Verif.QwlFloat.c127_numbers",
    "Verif.QwlFloat.c127_isclose",
    "Verif.QwlFloat.c127_positive",
    "Verif.QwlFloat.c127_zero",
    "Verif.QwlFloat.c127_record_counterexample",
    "Verif.QwlFloat.c127_partial"
   ],
   "note": "Refuted for every recorded motion (c127_record_counterexample); proved for positive frequencies (c127_positive, c127_partial). Infinities and nan are modelled, rounding is not."
  },
  {
   "property": "C128",
   "status": "proved",
   "theorems": [
    "Verif.Props.c128_mod_reduc",
    "Verif.Props.c128_damping",
    "Verif.Props.c128_shear_mod",
    "Verif.Props.c128_void",
    "Verif.Props.c128_damping_min",
    "Verif.Props.c128_outside"
   ],
   "note": "Within the stated ranges; c128_outside shows what happens outside them."
  },
  {
   "property": "C129",
   "status": "proved",
   "theorems": [
    "Verif.Waves.c129_continuous"
   ],
   "note": ""
  },
  {
   "property": "C130",
   "status": "proved",
   "theorems": [
    "Verif.Eql.c130_limit",
    "Verif.Eql.c130_stops",
    "Verif.Eql.c130_converges",
    "Verif.Eql.c130_exists",
    "Verif.Eql.c130_record",
    "Verif.Eql.c130_cycle"
   ],
   "note": ""
  },
  {
   "property": "C131",
   "status": "partial",
   "theorems": [
    "Verif.Variation.c131_trunc_var",
    "Verif.Variation.c131_draw",
    "Verif.Variation.c131_pairs_counterexample",
    "Verif.Variation.c131_correlated",
    "Verif.Variation.c131_returns",
    "Verif.Variation.c131_vel_mean",
    "Verif.Variation.c131_vel_var_partial",
    "Verif.Variation.c131_vel_counterexample",
    "Verif.Variation.c131_vel_median",
    "Verif.Variation.c131_vel_cov",
    "Verif.Variation.c131_cov_counterexample"
   ],
   "note": "Unit standard deviation holds of single draws; the pairs have less (c131_pairs_counterexample), the velocities more (c131_vel_counterexample), and numpy draws from another covariance than the given one if that is not positive semidefinite (c131_cov_counterexample). Means and medians hold."
  },
  {
   "property": "C132",
   "status": "proved",
   "theorems": [
    "Verif.Variation.c132_poisson",
    "Verif.Variation.c132_layers",
    "Verif.Variation.c132_enough",
    "Verif.Variation.c132_terminates"
   ],
   "note": ""
  },
  {
   "property": "C133",
   "status": "partial",
   "theorems": [
    "Verif.Variation.c133_median",
    "Verif.Variation.c133_darendeli_median",
    "Verif.Variation.c133_spid_median",
    "Verif.Variation.c133_darendeli_counterexample",
    "Verif.Variation.c133_spid_counterexample",
    "Verif.Variation.c133_sign_partial",
    "Verif.Variation.c133_curves",
    "Verif.Variation.c133_correlation_counterexample"
   ],
   "note": "Medians, means and the sign of the covariance hold. The standard deviations are smaller than given (c133_darendeli_counterexample, c133_spid_counterexample), and so is the size of the correlation (c133_correlation_counterexample), because pairs outside the limits are drawn again."
  },
  {
   "property": "C134",
   "status": "partial",
   "theorems": [
    "Verif.LogicTree.c134_plain_partial",
    "Verif.LogicTree.c134_tuple_counterexample",
    "Verif.LogicTree.c134_list_counterexample",
    "Verif.LogicTree.c134_condition"
   ],
   "note": "False for tuples (c134_tuple_counterexample, c134_list_counterexample, c134_condition); c134_plain_partial is the part for strings and numbers."
  },
  {
   "property": "C135",
   "status": "partial",
   "theorems": [
    "Verif.Output.c135_zero",
    "Verif.Output.c135_zero_counterexample",
    "Verif.Output.c135_negative_partial",
    "Verif.Output.c135_surface_counterexample",
    "Verif.Output.c135_depths"
   ],
   "note": "Refuted by c135_zero_counterexample and c135_surface_counterexample; c135_zero gives the exact effect of a zero, c135_negative_partial the part that holds (negative values)."
  },
  {
   "property": "C136",
   "status": "partial",
   "theorems": [
    "Verif.Output.c136_indiv_partial",
    "Verif.Output.c136_stats_fixed",
    "Verif.Output.c136_stats_profile",
    "Verif.Output.c136_stats_series",
    "Verif.Output.c136_refusals",
    "Verif.Output.c136_single_counterexample",
    "Verif.Output.c136_stress_ratio_counterexample",
    "Verif.Output.c136_classes"
   ],
   "note": "Refuted by c136_stress_ratio_counterexample and c136_single_counterexample; c136_indiv_partial for every class but the stress ratio, c136_stats_fixed, c136_stats_profile and c136_stats_series for three or more results, c136_refusals for two results, unknown styles and no results."
  },
  {
   "property": "C137",
   "status": "proved",
   "theorems": [
    "Verif.Motion.c137_stiff",
    "Verif.Motion.c137_soft",
    "Verif.Motion.c137_continuous",
    "Verif.Motion.c137_magnitude",
    "Verif.Motion.c137_magnitude_attained",
    "Verif.Motion.c137_bound",
    "Verif.Motion.c137_damping"
   ],
   "note": "Exact arithmetic; the limits are those of the discrete transform the code uses."
  },
  {
   "property": "C138",
   "status": "proved",
   "theorems": [
    "Verif.OutputValues.c138_motion",
    "Verif.OutputValues.c138_wave_equation"
   ],
   "note": "Stress series with damped=True. Frequency-dependent properties are included, as the layers may differ from frequency to frequency."
  },
  {
   "property": "C139",
   "status": "proved",
   "theorems": [
    "Verif.OutputValues.c139_velocity",
    "Verif.OutputValues.c139_none"
   ],
   "note": ""
  },
  {
   "property": "C140",
   "status": "partial",
   "theorems": [
    "Verif.Names.c140_plain",
    "Verif.Names.c140_ko",
    "Verif.Names.c140_history",
    "Verif.Names.c140_accepts_partial",
    "Verif.Names.c140_unknown",
    "Verif.Names.c140_counterexample"
   ],
   "note": "Refuted for undocumented names (KA02, ko20, zr51); everything else proved. float, least squares and the smoothing of pykooh are parameters; for the history it is assumed that freqs_match is true only for equal frequencies."
  },
  {
   "property": "C141",
   "status": "proved",
   "theorems": [
    "Verif.ProfilePlot.c141_line",
    "Verif.ProfilePlot.c141_axes",
    "Verif.ProfilePlot.c141_settings",
    "Verif.ProfilePlot.c141_refused",
    "Verif.ProfilePlot.c141_fdm"
   ],
   "note": "Of the drawing the vertices of the line and the settings of the axes are modelled; the vertices of a step line are those of matplotlib (trusted). Infinite errors are not drawn and outside the model."
  },
  {
   "property": "C142",
   "status": "proved",
   "theorems": [
    "Verif.Qwl.c142_bounds",
    "Verif.Qwl.c142_high",
    "Verif.Qwl.c142_low",
    "Verif.Qwl.c142_resonance"
   ],
   "note": "Bounds and the limits at high and low frequencies for the standard exponent; for ba23 see C41. The limit at low frequencies concerns the results of calculations that converge (C71 says which do)."
  },
  {
   "property": "C143",
   "status": "partial",
   "theorems": [
    "Verif.Qwl.c143_average",
    "Verif.Qwl.c143_time_average",
    "Verif.Qwl.c143_amp_partial",
    "Verif.Qwl.c143_counterexample",
    "Verif.Qwl.c143_raises_counterexample"
   ],
   "note": "The averages and their agreement with time_average_vel are proved. The amplification is refuted (c143_counterexample, c143_raises_counterexample) and proved for divisions with the same mean of the slownesses (c143_amp_partial)."
  },
  {
   "property": "C144",
   "status": "proved",
   "theorems": [
    "Verif.Fdm.c144_weak",
    "Verif.Fdm.c144_limit"
   ],
   "note": "c144_weak, c144_limit (Props/FdmWeak); one equivalent-linear estimate (C119) followed by one iteration with arrays of properties."
  },
  {
   "property": "C145",
   "status": "proved",
   "theorems": [
    "Verif.Fdm.c145_fdm",
    "Verif.Fdm.c145_done",
    "Verif.Motion.c145_motion"
   ],
   "note": "c145_fdm, c145_done, c145_motion (Props/FdmSimilitude); frequencies not treated as zero in only one of the analyses; spectra that vanish identically are outside the model."
  },
  {
   "property": "C146",
   "status": "proved",
   "theorems": [
    "Verif.Output.c146_fixed",
    "Verif.Output.c146_row",
    "Verif.Output.c146_fixed_few",
    "Verif.Output.c146_series",
    "Verif.Output.c146_profile",
    "Verif.Output.c146_depths",
    "Verif.Output.c146_profile_few"
   ],
   "note": "c146_fixed, c146_row, c146_fixed_few, c146_series, c146_profile, c146_depths, c146_profile_few (Props/StatsFrame); the rule of pd.DataFrame for a dictionary of arrays is written out in the model."
  },
  {
   "property": "C147",
   "status": "proved",
   "theorems": [
    "Verif.Fdm.c147_numbers",
    "Verif.Fdm.c147_table",
    "Verif.Fdm.c147_second",
    "Verif.Fdm.c147_mixed",
    "Verif.Fdm.c147_compat",
    "Verif.Fdm.c147_value",
    "Verif.Fdm.c147_empty"
   ],
   "note": "c147_numbers, c147_table, c147_second, c147_mixed, c147_compat (Props/FdmProfiles); the rule of np.asarray for lists of numbers and arrays is written out in the model."
  },
  {
   "property": "C148",
   "status": "proved",
   "theorems": [
    "Verif.Ncm.c148_fetch",
    "Verif.Ncm.c148_fetch_refused",
    "Verif.Ncm.c148_url",
    "Verif.Ncm.c148_format",
    "Verif.Ncm.c148_load",
    "Verif.Ncm.c148_no_results",
    "Verif.Ncm.c148_missing",
    "Verif.Ncm.c148_files"
   ],
   "note": "c148_fetch, c148_fetch_refused, c148_url, c148_format, c148_load, c148_no_results, c148_missing, c148_files (Props/Ncm); JSON decoding of what was written, numpy conversion of vectors and the use of the depth of the water table as a number are parameters or trusted."
  },
  {
   "property": "C149",
   "status": "proved",
   "theorems": [
    "Verif.PublishedStore.c149_loaded",
    "Verif.PublishedStore.c149_warning",
    "Verif.PublishedStore.c149_empty",
    "Verif.PublishedStore.c149_once",
    "Verif.PublishedStore.c149_shipped"
   ],
   "note": "c149_loaded, c149_warning, c149_empty, c149_once, c149_shipped (Props/PublishedStore)."
  },
  {
   "property": "C150",
   "status": "proved",
   "theorems": [
    "Verif.Waves.c150_stiffening",
    "Verif.Waves.c150_no_resonance",
    "Verif.Waves.c150_softening",
    "Verif.Waves.c150_resonance_reached",
    "Verif.Waves.c150_monotone",
    "Verif.Waves.c150_depth",
    "Verif.Waves.c150_below",
    "Verif.Waves.c150_between",
    "Verif.Waves.c150_first_softening",
    "Verif.Waves.c150_first_layer"
   ],
   "note": "c150_stiffening, c150_no_resonance, c150_softening, c150_resonance_reached, c150_monotone, c150_below, c150_depth, c150_between, c150_first_softening, c150_first_layer (Props/Fundamental)."
  },
  {
   "property": "C151",
   "status": "proved",
   "theorems": [
    "Verif.Waves.c151_motion",
    "Verif.Waves.c151_strain",
    "Verif.Waves.c151_rigid"
   ],
   "note": "c151_motion, c151_strain, c151_rigid (Props/RockStiffness)."
  },
  {
   "property": "C152",
   "status": "proved",
   "theorems": [
    "Verif.OutputValues.c152_echoes",
    "Verif.OutputValues.c152_series",
    "Verif.OutputValues.c152_unique",
    "Verif.OutputValues.c152_peak",
    "Verif.OutputValues.c152_matched"
   ],
   "note": "c152_echoes, c152_unique, c152_series, c152_peak, c152_matched (Props/Echoes)."
  },
  {
   "property": "C153",
   "status": "proved",
   "theorems": [
    "Verif.Fdm.c153_exists",
    "Verif.Fdm.c153_iff",
    "Verif.Fdm.c153_stationary",
    "Verif.Fdm.c153_limit"
   ],
   "note": "c153_exists, c153_iff, c153_stationary, c153_limit (Props/FdmCompatible). The smoothing is a parameter (assumed continuous, keeping positivity). The method ka-02 is not claimed: its mask depends discontinuously on the mean frequency."
  },
  {
   "property": "C154",
   "status": "proved",
   "theorems": [
    "Verif.OutputValues.c154_waves",
    "Verif.OutputValues.c154_samples",
    "Verif.OutputValues.c154_surface",
    "Verif.OutputValues.c154_largest",
    "Verif.OutputValues.c154_energy",
    "Verif.OutputValues.c154_unique"
   ],
   "note": "c154_waves, c154_samples, c154_surface, c154_largest, c154_energy, c154_unique (Props/TravelTimes)."
  },
  {
   "property": "C155",
   "status": "proved",
   "theorems": [
    "Verif.OutputValues.c155_square",
    "Verif.OutputValues.c155_log",
    "Verif.OutputValues.c155_reached"
   ],
   "note": "c155_square, c155_log, c155_reached (Props/MeanAmplification)."
  },
  {
   "property": "C156",
   "status": "proved",
   "theorems": [
    "Verif.Motion.c156_product",
    "Verif.Motion.c156_default",
    "Verif.OutputValues.c156_accel",
    "Verif.OutputValues.c156_record",
    "Verif.OutputValues.c156_strain",
    "Verif.OutputValues.c156_stress",
    "Verif.OutputValues.c156_response",
    "Verif.OutputValues.c156_compatible",
    "Verif.OutputValues.c156_freq_compatible",
    "Verif.OutputValues.c156_nyquist_counterexample"
   ],
   "note": "c156_product, c156_default, c156_accel, c156_record, c156_strain, c156_stress, c156_response, c156_compatible, c156_freq_compatible; the loss at the last frequency is c156_nyquist_counterexample, the reason for the condition (Props/Deconvolution)."
  },
  {
   "property": "C157",
   "status": "proved",
   "theorems": [
    "Verif.MotionObject.c157_answers",
    "Verif.MotionObject.c157_construct",
    "Verif.MotionObject.c157_accels_counterexample"
   ],
   "note": "c157_answers by induction over the history with an invariant on the remembered values; exceptions included. The array handed out by freqs (the object's own) is assumed not to be written to; motions based on random vibration theory come from pyrvt and are not modelled."
  },
  {
   "property": "C158",
   "status": "partial",
   "theorems": [
    "Verif.Variation.Percentiles.c158_within",
    "Verif.Variation.Percentiles.c158_exists",
    "Verif.Variation.Percentiles.c158_mono",
    "Verif.Variation.Percentiles.c158_unique",
    "Verif.Variation.Percentiles.c158_opposite",
    "Verif.Variation.Percentiles.c158_pairs",
    "Verif.Variation.Percentiles.c158_above_counterexample",
    "Verif.Variation.Percentiles.c158_below_counterexample",
    "Verif.Variation.Percentiles.c158_median_partial"
   ],
   "note": "Refuted in general (c158_above_counterexample, c158_below_counterexample) and proved for the median (c158_median_partial); the rest of the statement is proved. The generators of numpy and scipy and the percent point function are taken to be exact."
  },
  {
   "property": "C159",
   "status": "proved",
   "theorems": [
    "Verif.Waves.c159_outcrop",
    "Verif.Waves.c159_within",
    "Verif.Waves.c159_layers_counterexample"
   ],
   "note": "c159_layers_counterexample shows that the common damping is needed."
  },
  {
   "property": "C160",
   "status": "proved",
   "theorems": [
    "Verif.Waves.c160_amplification",
    "Verif.Waves.c160_resonance"
   ],
   "note": "Undamped layers; beyond the first resonance of the softer deposit nothing is claimed."
  },
  {
   "property": "C86",
   "status": "partial",
   "theorems": [
    "Verif.Props.c86_kishida_curves_partial",
    "Verif.Props.c86_kishida_exact",
    "Verif.Props.c86_kishida_limit_counterexample",
    "Verif.Props.c86_kishida_counterexample",
    "Verif.Props.c86_kishida_threshold_counterexample",
    "Verif.Props.c86_kishida_lab_ratio",
    "Verif.Props.c86_kishida_unit_wt"
   ],
   "note": "False at high stresses; the exact range of stresses is proved (c86_kishida_exact). Laboratory ratio and unit weight proved in full."
  },
  {
   "property": "C115",
   "status": "proved",
   "theorems": [
    "Verif.SoilTypes.c115_layer",
    "Verif.SoilTypes.c115_default_strains",
    "Verif.SoilTypes.c115_darendeli",
    "Verif.SoilTypes.c115_menq",
    "Verif.SoilTypes.c115_rollins",
    "Verif.SoilTypes.c115_two_param",
    "Verif.SoilTypes.c115_alemu",
    "Verif.SoilTypes.c115_kishida",
    "Verif.SoilTypes.c115_damping_min",
    "Verif.SoilTypes.c115_arguments"
   ],
   "note": "Menq above 10^-8.6 atm, two-parameter type from 2^-15 to 62.57 atm, Kishida from e^-9 to e^7.6 kN/m²: outside these the tables themselves are not monotone or not known to be (C66, C84, C86)."
  },
  {
   "property": "C161",
   "status": "proved",
   "theorems": [
    "Verif.Motion.c161_compare",
    "Verif.Motion.c161_nyquist_counterexample",
    "Verif.Motion.c161_arias",
    "Verif.Motion.c161_damping",
    "Verif.Motion.c161_reflected",
    "Verif.Motion.c161_undamped",
    "Verif.Motion.c161_rock",
    "Verif.Motion.c161_softer"
   ],
   "note": "With the condition that the record has no component at the last frequency; without it the comparison is false (c161_nyquist_counterexample)."
  },
  {
   "property": "C162",
   "status": "proved",
   "theorems": [
    "Verif.Waves.c162_below_resonance",
    "Verif.Waves.c162_softer",
    "Verif.Waves.c162_outcrop",
    "Verif.Waves.c162_ceiling",
    "Verif.Waves.c162_one_layer_counterexample",
    "Verif.Motion.c162_energy"
   ],
   "note": "Up to the first resonance of the undamped site; beyond it the comparison is false (c162_one_layer_counterexample)."
  },
  {
   "property": "C163",
   "status": "proved",
   "theorems": [
    "Verif.Waves.c163_motion",
    "Verif.Waves.c163_strain",
    "Verif.Waves.c163_stress",
    "Verif.Motion.c163_energy"
   ],
   "note": ""
  },
  {
   "property": "C164",
   "status": "proved",
   "theorems": [
    "Verif.Motion.c164_bound",
    "Verif.Motion.c164_reached",
    "Verif.Motion.c164_change",
    "Verif.Motion.c164_ordinate",
    "Verif.Motion.c164_velocity",
    "Verif.Motion.c164_surface",
    "Verif.Motion.c164_strain"
   ],
   "note": ""
  },
  {
   "property": "C165",
   "status": "partial",
   "theorems": [
    "Verif.Hashing.c165_hash",
    "Verif.Hashing.c165_contract_counterexample",
    "Verif.Hashing.c165_found_partial",
    "Verif.Hashing.c165_soil_types",
    "Verif.Hashing.c165_meant_same",
    "Verif.Hashing.c165_meant_different"
   ],
   "note": "refuted: hashes change with the state of the memory; proved: when an object is found, and iter_soil_types for all hashes"
  },
  {
   "property": "C166",
   "status": "proved",
   "theorems": [
    "Verif.Rounding.c166_error",
    "Verif.Rounding.c166_tile",
    "Verif.Rounding.c166_lookup",
    "Verif.Rounding.c166_unique",
    "Verif.Rounding.c166_mid",
    "Verif.Rounding.c166_from",
    "Verif.Rounding.c166_lost"
   ],
   "note": "any rounding function as a parameter; overflow, underflow and pore pressures left out; layers differ from the last one (C07)"
  },
  {
   "property": "C167",
   "status": "partial",
   "theorems": [
    "Verif.RoundedLayering.c167_exact",
    "Verif.RoundedLayering.c167_sliver_counterexample",
    "Verif.RoundedLayering.c167_partial",
    "Verif.RoundedLayering.c167_thin"
   ],
   "note": "refuted in binary64 by an additional layer of one unit in the last place; proved: exact arithmetic, when a layer is added, and how thin it is"
  },
  {
   "property": "C168",
   "status": "partial",
   "theorems": [
    "Verif.RoundedDiscretize.c168_sum",
    "Verif.RoundedDiscretize.c168_thickness_partial",
    "Verif.RoundedDiscretize.c168_count_partial",
    "Verif.RoundedDiscretize.c168_count_counterexample"
   ],
   "note": "refuted in binary64 by one sublayer too many and by sublayers one unit in the last place too thick; proved: bounds of number, thickness and sum for every rounding"
  }
 ]
}