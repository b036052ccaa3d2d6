{
 "claims": [
  {
   "property": "C01",
   "status": "proved",
   "theorems": [
    "Verif.Props.beta_from_mu_sigma",
    "Verif.Props.beta_from_mu_nu",
    "Verif.Props.beta_to_from",
    "Verif.Props.beta_object_mu_sigma",
    "Verif.Props.beta_object_mu_nu",
    "Verif.Props.beta_object_alpha_beta",
    "Verif.Props.beta_from_mu_sigma_unattainable"
   ],
   "note": "Beta round trips, at the level of the conversions and of the object; outside the attainable region the code silently yields non-positive shapes (beta_from_mu_sigma_unattainable)."
  },
  {
   "property": "C02",
   "status": "proved",
   "theorems": [
    "Verif.Props.gamma_from_mu_sigma",
    "Verif.Props.gamma_to_from",
    "Verif.Props.invgamma_from_mu_sigma",
    "Verif.Props.invgamma_to_from",
    "Verif.Props.invgamma_undefined",
    "Verif.Props.gamma_object_mu_sigma",
    "Verif.Props.gamma_object_alpha_beta",
    "Verif.Props.invgamma_object_mu_sigma",
    "Verif.Props.invgamma_object_alpha_beta",
    "Verif.Props.invgamma_object_undefined"
   ],
   "note": "InverseGamma's from_mu_sigma used by the constructor is external; assumed to be the in-repo function of the same name."
  },
  {
   "property": "C03",
   "status": "proved",
   "theorems": [
    "Verif.Props.nb_from_to",
    "Verif.Props.nb_to_from",
    "Verif.Props.wald_round_trips",
    "Verif.Props.rice_round_trips",
    "Verif.Props.asym_laplace_round_trips",
    "Verif.Props.exponential_round_trips",
    "Verif.Props.logit_expit",
    "Verif.Props.expit_logit",
    "Verif.Props.nb_object_p_n",
    "Verif.Props.nb_object_mu_alpha",
    "Verif.Props.wald_objects",
    "Verif.Props.rice_objects",
    "Verif.Props.asym_laplace_objects",
    "Verif.Props.asym_laplace_every_q",
    "Verif.Props.exponential_objects",
    "Verif.Props.bernoulli_objects"
   ],
   "note": ""
  },
  {
   "property": "C04",
   "status": "partial",
   "theorems": [
    "Verif.Props.precision_not_round_trip",
    "Verif.Props.precision_round_trip_partial",
    "Verif.Props.precision_of_sigma",
    "Verif.Props.precision_objects_partial"
   ],
   "note": "Exact equality is false (machine epsilon added to the variance); negation and exact error bound proved."
  },
  {
   "property": "C05",
   "status": "proved",
   "theorems": [
    "Verif.Props.conflict_rejected",
    "Verif.Props.conflict_rejected_construct",
    "Verif.Props.compatible_accepted"
   ],
   "note": ""
  },
  {
   "property": "C06",
   "status": "partial",
   "theorems": [
    "Verif.Props.frozen_though_incomplete",
    "Verif.Props.frozen_iff_complete_partial",
    "Verif.Props.reparametrize_frozen"
   ],
   "note": "False for Kumaraswamy(a=0) and ZeroInflatedNegativeBinomial without psi (negation proved); proved for everything else."
  },
  {
   "property": "C07",
   "status": "partial",
   "theorems": [
    "Verif.Props.params_dict_rebuilds_partial",
    "Verif.Props.precision_rebuild_drifts",
    "Verif.Props.stale_params_mislabelled"
   ],
   "note": "False for precision parametrisations and after an incomplete re-parametrisation of a frozen object (negations proved); proved for all other histories."
  },
  {
   "property": "C08",
   "status": "partial",
   "theorems": [
    "Verif.Props.location_scale_moments",
    "Verif.Props.uniform_moments_not_exact",
    "Verif.Props.uniform_moments_partial",
    "Verif.Props.asym_laplace_docstring_variance"
   ],
   "note": "Exact for all listed families except Uniform (1.73205 instead of sqrt 3, negation proved, relative error < 1e-6 proved)."
  },
  {
   "property": "C09",
   "status": "proved",
   "theorems": [
    "Verif.Props.positive_moments",
    "Verif.Props.one_parameter_moments"
   ],
   "note": ""
  },
  {
   "property": "C10",
   "status": "partial",
   "theorems": [
    "Verif.Props.beta_moments_partial",
    "Verif.Props.beta_moments_clamped",
    "Verif.Props.beta_scaled_moments_partial",
    "Verif.Props.discrete_uniform_moments",
    "Verif.Props.bernoulli_geometric_moments",
    "Verif.Props.bernoulli_geometric_inadmissible",
    "Verif.Props.studentt_moments_partial",
    "Verif.Props.studentt_moments_not_exact",
    "Verif.Props.location_scale_moments"
   ],
   "note": "Beta clamps at 1/2; StudentT without nu > 2 misses the variance; Bernoulli/Geometric leave the domain for unattainable means (negations proved)."
  },
  {
   "property": "C11",
   "status": "partial",
   "theorems": [
    "Verif.Props.truncated_cdf",
    "Verif.Props.truncated_proper",
    "Verif.Props.truncated_pmf",
    "Verif.Props.truncated_density",
    "Verif.Props.truncated_integral_one",
    "Verif.Props.truncated_sum_one",
    "Verif.Props.truncated_logpdf",
    "Verif.Props.truncated_noninteger_lower"
   ],
   "note": "Proved for every continuous base and for discrete bases with an integer or infinite lower bound; false for a non-integer lower bound on a discrete base (negation proved)."
  },
  {
   "property": "C12",
   "status": "partial",
   "theorems": [
    "Verif.Props.truncated_ppf",
    "Verif.Props.truncated_ppf_nan",
    "Verif.Props.truncated_rvs_partial",
    "Verif.Props.truncated_ppf_zero_below"
   ],
   "note": "Proved for probabilities in (0,1]; at 0 a discrete base with mass below the lower bound returns a value below it (negation proved)."
  },
  {
   "property": "C13",
   "status": "partial",
   "theorems": [
    "Verif.Props.wrapper_labels_partial",
    "Verif.Props.wrapper_order_mislabelled",
    "Verif.Props.wrapper_subset_frozen",
    "Verif.Props.wrapper_parametrisation_mislabelled",
    "Verif.Props.hurdle_frozen_without_psi",
    "Verif.Props.refit_forgets_bounds",
    "Verif.Props.wrapper_missing_argument"
   ],
   "note": "Only true when the keyword arguments come under the base's current names and in that order; the other cases are negated by witnesses."
  },
  {
   "property": "C14",
   "status": "partial",
   "theorems": [
    "Verif.Props.censored_mass",
    "Verif.Props.censored_sum_one",
    "Verif.Props.censored_density",
    "Verif.Props.censored_noninteger_upper",
    "Verif.Props.censored_equal_bounds"
   ],
   "note": "Proved for continuous bases and for discrete bases with whole bounds, lower < upper; non-integer upper bound and equal bounds on a discrete base are negated."
  },
  {
   "property": "C15",
   "status": "partial",
   "theorems": [
    "Verif.Props.censored_cdf_partial",
    "Verif.Props.censored_cdf_upper_below_one"
   ],
   "note": "Exact characterisation: right everywhere except at a finite upper bound with mass above it."
  },
  {
   "property": "C16",
   "status": "proved",
   "theorems": [
    "Verif.Props.censored_ppf",
    "Verif.Props.censored_median",
    "Verif.Props.censored_rvs"
   ],
   "note": "For probabilities in (0,1]."
  },
  {
   "property": "C17",
   "status": "partial",
   "theorems": [
    "Verif.Props.censored_mean",
    "Verif.Props.censored_var",
    "Verif.Props.censored_skew_kurt_partial",
    "Verif.Props.censored_skewness_wrong",
    "Verif.Props.censored_kurtosis_wrong"
   ],
   "note": "Mean and variance proved (given exact truncated moments); skewness and kurtosis are wrong unless nothing is clipped (negations with exact truncated moments)."
  },
  {
   "property": "C18",
   "status": "partial",
   "theorems": [
    "Verif.Props.hurdle_proper",
    "Verif.Props.hurdle_mass",
    "Verif.Props.hurdle_density_partial",
    "Verif.Props.hurdle_total_mass",
    "Verif.Props.hurdle_continuous_mass_exceeds_one",
    "Verif.Props.hurdle_cdf_partial",
    "Verif.Props.hurdle_cdf_negative",
    "Verif.Props.hurdle_cdf_not_monotone",
    "Verif.Props.hurdle_ppf_partial",
    "Verif.Props.hurdle_ppf_nan",
    "Verif.Props.hurdle_logpdf"
   ],
   "note": "False below zero, and for continuous bases with mass in (0, eps]; exact characterisations and negations proved."
  },
  {
   "property": "C19",
   "status": "proved",
   "theorems": [
    "Verif.Props.mixture_weights",
    "Verif.Props.mixture_scale",
    "Verif.Props.mixture_proper",
    "Verif.Props.mixture_cdf",
    "Verif.Props.mixture_mass",
    "Verif.Props.mixture_density",
    "Verif.Props.mixture_logpdf",
    "Verif.Props.mixture_mean_var",
    "Verif.Props.mixture_extra_weight"
   ],
   "note": "One weight per component is a hypothesis: the code does not check it, and a surplus weight loses mass (mixture_extra_weight)."
  },
  {
   "property": "C20",
   "status": "proved",
   "theorems": [
    "Verif.Props.mixture_rvs_length",
    "Verif.Props.mixture_rvs_perm",
    "Verif.Props.mixture_rvs_block_order",
    "Verif.Props.mixture_rvs_zero"
   ],
   "note": "size=0 raises (mixture_rvs_zero)."
  },
  {
   "property": "C21",
   "status": "proved",
   "theorems": [
    "Verif.Props.eti_continuous",
    "Verif.Props.eti_discrete",
    "Verif.Props.eti_covers",
    "Verif.Props.eti_exact",
    "Verif.Props.eti_nested",
    "Verif.Props.eti_formatted",
    "Verif.Props.eti_default_and_errors",
    "Verif.Props.eti_whole",
    "Verif.Props.eti_whole_unbounded",
    "Verif.Props.isf_inverse",
    "Verif.Props.sf_tail"
   ],
   "note": "Mass 1 needs the quantiles at 0 and 1 to be finite; an unbounded discrete distribution raises OverflowError there (eti_whole_unbounded)."
  },
  {
   "property": "C22",
   "status": "partial",
   "theorems": [
    "Verif.Props.hdi_covers",
    "Verif.Props.hdi_unreachable",
    "Verif.Props.hdi_shortest_partial",
    "Verif.Props.hdi_ties",
    "Verif.Props.findHdi_short"
   ],
   "note": "Coverage and exclusion of less likely points only are proved for all inputs; shortest-interval only without ties (hdi_ties is a counterexample). Grids of 199 or more points take the numerical optimiser; what it returns is the subject of C71 and C90."
  },
  {
   "property": "C23",
   "status": "partial",
   "theorems": [
    "Verif.Props.xvals_small",
    "Verif.Props.xvals_large_partial",
    "Verif.Props.xvals_huge",
    "Verif.Props.xvals_outside",
    "Verif.Props.xvals_too_many",
    "Verif.Props.xvals_count",
    "Verif.Props.xvals_endpoints"
   ],
   "note": "Ranges above n_points include upper+1; a range equal to n_points yields n_points+1 values (negations proved, exact description proved)."
  },
  {
   "property": "C24",
   "status": "proved",
   "theorems": [
    "Verif.Props.ppf_bracket",
    "Verif.Props.findPpf_edges",
    "Verif.Props.findPpf_inverse",
    "Verif.Props.findPpf_quantile",
    "Verif.Props.findsRoots_exists"
   ],
   "note": "The root finder is trusted to return a root of a continuous function inside a bracket."
  },
  {
   "property": "C25",
   "status": "proved",
   "theorems": [
    "Verif.Props.discrete_mode",
    "Verif.Props.discrete_mode_global",
    "Verif.Props.discrete_mode_missed"
   ],
   "note": "discrete_mode_missed: on ranges longer than the grid the grid's maximiser need not be a mode."
  },
  {
   "property": "C26",
   "status": "partial",
   "theorems": [
    "Verif.Props.candidate_filled",
    "Verif.Props.complete_reported",
    "Verif.Props.fixed_stays_partial",
    "Verif.Props.given_is_fixed",
    "Verif.Props.tau_not_fixed",
    "Verif.Props.wald_phi_not_fixed"
   ],
   "note": "All families and parametrisations not going through a precision. False for precision parameters (tau, lam of the t families drift) and for Wald given phi alone; both negations proved. TruncatedNormal's infinite default bounds are in C109."
  },
  {
   "property": "C27",
   "status": "proved",
   "theorems": [
    "Verif.Props.maxent_selects",
    "Verif.Props.maxent_fallback",
    "Verif.Props.maxent_leaves_selected",
    "Verif.Props.constraint_is_mass",
    "Verif.Props.fixed_stat_error_cancels"
   ],
   "note": "The optimiser runs are arbitrary inputs. fixed_stat_error_cancels records that with fixed_stat the checked quantity can vanish although the mass is wrong."
  },
  {
   "property": "C28",
   "status": "partial",
   "theorems": [
    "Verif.Props.best_is_first_min",
    "Verif.Props.fit_to_sample_ranks",
    "Verif.Props.fit_to_epdf_ranks",
    "Verif.Props.fit_to_quartile_ranks",
    "Verif.Props.mle_first_is_best",
    "Verif.Props.ranking_aborts"
   ],
   "note": "False when a compatible candidate has exactly n-1 parameters: the ranking aborts with ZeroDivisionError (ranking_aborts); proved otherwise. argsort is external: any sorted permutation."
  },
  {
   "property": "C29",
   "status": "partial",
   "theorems": [
    "Verif.Props.penalty_is_aicc",
    "Verif.Props.penalty_pos",
    "Verif.Props.penalty_increasing",
    "Verif.Props.penalty_antitone",
    "Verif.Props.penalty_limit",
    "Verif.Props.penalty_pole",
    "Verif.Props.penalty_negative"
   ],
   "note": "Proved for n > k+1; at n = k+1 an exception, below it the penalty can be negative (both proved)."
  },
  {
   "property": "C30",
   "status": "proved",
   "theorems": [
    "Verif.Props.endpoints_raise_iff",
    "Verif.Props.endpoints_bool_iff",
    "Verif.Props.endpoints_agree"
   ],
   "note": ""
  },
  {
   "property": "C31",
   "status": "partial",
   "theorems": [
    "Verif.Props.maxent_accepts_iff",
    "Verif.Props.maxent_accepts_fixed",
    "Verif.Props.quartile_accepts_iff",
    "Verif.Props.rejected_request_changes_object",
    "Verif.Props.mode_rejection_changes_object"
   ],
   "note": "The object is untouched on rejection only without fixed_params and not for the mode check; both exceptions are proved."
  },
  {
   "property": "C32",
   "status": "proved",
   "theorems": [
    "Verif.Props.combine_sizes",
    "Verif.Props.combine_total",
    "Verif.Props.combine_negative",
    "Verif.Props.combine_scaling",
    "Verif.Props.combine_default",
    "Verif.Props.combine_short",
    "Verif.Props.combine_surplus_weight"
   ],
   "note": ""
  },
  {
   "property": "C33",
   "status": "proved",
   "theorems": [
    "Verif.Props.pooled_histogram",
    "Verif.Props.pooled_order",
    "Verif.Props.pooled_negative",
    "Verif.Props.pooled_grids"
   ],
   "note": ""
  },
  {
   "property": "C34",
   "status": "partial",
   "theorems": [
    "Verif.Props.click_effect",
    "Verif.Props.click_outside",
    "Verif.Props.grid_invariant_partial",
    "Verif.Props.grid_invariant_inside",
    "Verif.Props.negative_chips"
   ],
   "note": "Lower bound is -1: a click in the margin below the first row makes a count negative (negative_chips); with no such click the bound is 0."
  },
  {
   "property": "C35",
   "status": "partial",
   "theorems": [
    "Verif.Props.roulette_histogram_partial",
    "Verif.Props.ticks_on_scale",
    "Verif.Props.position_is_not_label",
    "Verif.Props.roulette_degenerate",
    "Verif.Props.roulette_zero_total"
   ],
   "note": "Positions are half a step above the labels and the last column is beyond x_max (negation proved); the rest is proved."
  },
  {
   "property": "C36",
   "status": "partial",
   "theorems": [
    "Verif.Props.defaults_loaded",
    "Verif.Props.settings_invariant_partial",
    "Verif.Props.settings_invariant_numbers",
    "Verif.Props.nan_accepted",
    "Verif.Props.failed_assignment_unchanged",
    "Verif.Props.removal_rejected",
    "Verif.Props.failed_update_prefix",
    "Verif.Props.assign_probability",
    "Verif.Props.assign_probability_other",
    "Verif.Props.assign_kind",
    "Verif.Props.assign_plot",
    "Verif.Props.truthy_stored_false",
    "Verif.Props.assign_other",
    "Verif.Props.assign_unknown"
   ],
   "note": "The interval probability can become NaN (nan_accepted); the claim holds for every history in which no assigned value reads as NaN. A failing multiple assignment keeps the items before the failing one."
  },
  {
   "property": "C37",
   "status": "partial",
   "theorems": [
    "Verif.Props.exec_settled",
    "Verif.Props.context_restores",
    "Verif.Props.context_settings",
    "Verif.Props.failed_start_unchanged_partial",
    "Verif.Props.failed_start_leaks",
    "Verif.Props.context_object_applies_at_once"
   ],
   "note": "Restoration is proved in full; a context that fails to start leaves earlier items changed (failed_start_leaks)."
  },
  {
   "property": "C38",
   "status": "partial",
   "theorems": [
    "Verif.Props.read_file_partial",
    "Verif.Props.malformed_line_raises",
    "Verif.Props.duplicate_key_raises",
    "Verif.Props.unknown_key_raises",
    "Verif.Props.bad_value_raises",
    "Verif.Props.rc_params_from_file",
    "Verif.Props.rc_file_order",
    "Verif.Props.rc_candidates_cases"
   ],
   "note": "Malformed lines and duplicate keys raise TypeError (negations proved); otherwise the claim holds."
  },
  {
   "property": "C39",
   "status": "proved",
   "theorems": [
    "Verif.Props.dirichlet_mode_returned",
    "Verif.Props.dirichlet_warnings",
    "Verif.Props.dirichlet_tail_returned",
    "Verif.Props.dirichlet_rejects",
    "Verif.Props.prepare_ok_iff",
    "Verif.Props.prepared_mode"
   ],
   "note": "Beta distribution function abstract; at least two categories for the tail statement."
  },
  {
   "property": "C40",
   "status": "proved",
   "theorems": [
    "Verif.Props.dirichlet_search_ends",
    "Verif.Props.dirichlet_search_ends_of_strictAnti",
    "Verif.Props.dirichlet_search_hangs",
    "Verif.Props.dirichlet_mode_hangs"
   ],
   "note": "Also proved: a concrete class of requests that never return."
  },
  {
   "property": "C41",
   "status": "proved",
   "theorems": [
    "Verif.Props.unravel_complete",
    "Verif.Props.unravel_position",
    "Verif.Props.unravel_narrow",
    "Verif.Props.vector_components",
    "Verif.Props.matrix_components_fail"
   ],
   "note": "matrix_components_fail: components of a matrix-valued variable cannot be addressed by the flat index (IndexError)."
  },
  {
   "property": "C42",
   "status": "partial",
   "theorems": [
    "Verif.Props.lines_text",
    "Verif.Props.write_model_partial",
    "Verif.Props.write_model_iff",
    "Verif.Props.write_model_count",
    "Verif.Props.write_model_late_parent",
    "Verif.Props.write_model_lost_variable",
    "Verif.Props.write_model_three_levels",
    "Verif.Props.lines_balanced",
    "Verif.Props.bambi_refit_unbalanced",
    "Verif.Props.bambi_text_not_closed"
   ],
   "note": "write_model_iff says exactly when the property holds. Holds when every hyperparent precedes its children and hierarchies are two levels deep; late parents, lost variables, three levels, and the unbalanced Bambi texts are proved as negations."
  },
  {
   "property": "C43",
   "status": "partial",
   "theorems": [
    "Verif.Props.from_pymc_roundtrip",
    "Verif.Props.from_pymc_node",
    "Verif.Props.from_pymc_missing_partial",
    "Verif.Props.from_pymc_loses_given",
    "Verif.Props.from_pymc_zero_inflated",
    "Verif.Props.from_pymc_bounds"
   ],
   "note": "Round trip proved for every re-parametrised family. A given mu/nu/N next to a missing alpha/sigma/k is lost (negation proved). PyMC's own parametrisation is trusted, vector parameters not modelled."
  },
  {
   "property": "C44",
   "status": "partial",
   "theorems": [
    "Verif.Props.refit_own_sample_partial",
    "Verif.Props.refit_shared_last",
    "Verif.Props.refit_shared_wrong"
   ],
   "note": "Proved when candidate lists share no object; a shared new_families list reports the last variable's fit (negation proved)."
  },
  {
   "property": "C45",
   "status": "partial",
   "theorems": [
    "Verif.Props.ppe_restores_partial",
    "Verif.Props.ppe_leaks"
   ],
   "note": "An exception between rebinding and restoration leaves the fresh symbol (negation proved)."
  },
  {
   "property": "C46",
   "status": "partial",
   "theorems": [
    "Verif.Props.log_level_restored_partial",
    "Verif.Props.log_level_detached"
   ],
   "note": "Effective level is restored always; an inherited level becomes an own level (negation proved)."
  },
  {
   "property": "C47",
   "status": "proved",
   "theorems": [
    "Verif.Props.ppa_no_repeats",
    "Verif.Props.ppa_selection_grows",
    "Verif.Props.ppa_clicks_selected"
   ],
   "note": "KD-tree, random choices and clicks are arbitrary inputs."
  },
  {
   "property": "C48",
   "status": "partial",
   "theorems": [
    "Verif.Props.ppa_continues_partial",
    "Verif.Props.ppa_clicks_read",
    "Verif.Props.ppa_stuck",
    "Verif.Props.ppa_stuck_ten",
    "Verif.Props.ppa_blank_click"
   ],
   "note": "False with one to eight unseen samples and no similar sample to display (ppa_stuck, e.g. ten draws), and when a blank leftover panel is clicked (ppa_blank_click)."
  },
  {
   "property": "C49",
   "status": "partial",
   "theorems": [
    "Verif.Props.ppa_boundaries_partial",
    "Verif.Props.ppa_boundaries_later",
    "Verif.Props.ppa_target_ignores_boundaries"
   ],
   "note": "With a target the first display ignores the boundaries (negation proved)."
  },
  {
   "property": "C50",
   "status": "partial",
   "theorems": [
    "Verif.Props.select_prior_missing",
    "Verif.Props.samples_aligned_partial",
    "Verif.Props.selection_aligned_partial",
    "Verif.Props.repeated_variable_misaligned"
   ],
   "note": "Engine preliz; needs distinct names in the model's return statement (a repeated name misaligns, proved)."
  },
  {
   "property": "C51",
   "status": "partial",
   "theorems": [
    "Verif.Props.jit_transparent",
    "Verif.Props.jit_cached",
    "Verif.Props.jit_failure",
    "Verif.Props.jit_once_partial",
    "Verif.Props.jit_keyerror_recompiles",
    "Verif.Props.jit_types_fit",
    "Verif.Props.rng_types_fit",
    "Verif.Props.rng_sizes"
   ],
   "note": "Compiler abstract (may fail at any time). A compiled function that raises KeyError is compiled again at each call (negation proved); otherwise at most once."
  },
  {
   "property": "C52",
   "status": "proved",
   "theorems": [
    "Verif.Props.extra_parsed",
    "Verif.Props.extra_found",
    "Verif.Props.extra_body",
    "Verif.Props.strip_iff",
    "Verif.Props.extra_empty"
   ],
   "note": "Word characters, white space and float() are parameters; every text made of entries (well formed or not) with separators that contain no opening bracket."
  },
  {
   "property": "C53",
   "status": "partial",
   "theorems": [
    "Verif.Props.moments_in_order",
    "Verif.Props.match_targets_dist",
    "Verif.Props.match_targets_rejects",
    "Verif.Props.match_accepts_nonfinite",
    "Verif.Props.match_targets_array_partial",
    "Verif.Props.match_targets_array_order",
    "Verif.Props.match_array_order_ignored",
    "Verif.Props.match_array_kurtosis",
    "Verif.Props.match_objective",
    "Verif.Props.match_silent_iff"
   ],
   "note": "Holds for distributions; for arrays only for letters in the order m, v, d, s (negations: order ignored, raw kurtosis, non-finite moments accepted next to finite ones)."
  },
  {
   "property": "C54",
   "status": "partial",
   "theorems": [
    "Verif.Props.catalog_get_partial",
    "Verif.Props.catalog_get_broken",
    "Verif.Props.catalog_names_broken",
    "Verif.Props.catalog_unknown",
    "Verif.Props.catalog_find",
    "Verif.Props.catalog_find_disagrees",
    "Verif.Props.catalog_find_unknown"
   ],
   "note": "get fails for six documented categories (negations proved); find is exact for the supports of parameter-free objects, which disagree with the categories for Uniform, Triangular etc."
  },
  {
   "property": "C55",
   "status": "partial",
   "theorems": [
    "Verif.Props.slider_range_partial",
    "Verif.Props.slider_range_zero",
    "Verif.Props.slider_range_outside"
   ],
   "note": "Holds for every value but zero, whose range ignores the support (negation proved). Rounding abstract."
  },
  {
   "property": "C56",
   "status": "partial",
   "theorems": [
    "Verif.Props.vonmises_interval_partial",
    "Verif.Props.vonmises_formatted",
    "Verif.Props.vonmises_failure"
   ],
   "note": "When the inner computation raises, mu is left at 0 (negation proved)."
  },
  {
   "property": "C57",
   "status": "partial",
   "theorems": [
    "Verif.Props.mean_and_std_value",
    "Verif.Props.mean_and_std_empty",
    "Verif.Props.mean_and_std_shift",
    "Verif.Props.mean_and_std_scale",
    "Verif.Props.fit_spread",
    "Verif.Props.normalPdf_eq",
    "Verif.Props.normal_fit_optimal_partial",
    "Verif.Props.normal_fit_constant"
   ],
   "note": "Values and equivariance proved in full. The Normal fit is optimal for every sample with two different values; for a constant sample there is no maximum and the fit is sigma = 0 (negation proved)."
  },
  {
   "property": "C58",
   "status": "partial",
   "theorems": [
    "Verif.Props.normal_fit_optimal_partial",
    "Verif.Props.lognormal_fit_optimal_partial",
    "Verif.Props.logitnormal_fit_optimal_partial",
    "Verif.Props.halfnormal_fit_optimal_partial",
    "Verif.Props.exponential_fit_optimal",
    "Verif.Props.exponential_fit_zeros",
    "Verif.Props.poisson_fit_optimal",
    "Verif.Props.geometric_fit_optimal",
    "Verif.Props.uniform_fit_optimal_partial",
    "Verif.Props.uniform_fit_constant",
    "Verif.Props.discrete_uniform_fit_optimal",
    "Verif.Props.median_optimal",
    "Verif.Props.laplace_fit_optimal_partial",
    "Verif.Props.laplace_spread",
    "Verif.Props.normal_fit_constant"
   ],
   "note": "All nine families (and LogitNormal) proved; degenerate samples (constant, all zero) have no maximum likelihood and the fit returns an inadmissible parameter (negations proved)."
  },
  {
   "property": "C59",
   "status": "partial",
   "theorems": [
    "Verif.Props.censored_entropy_continuous",
    "Verif.Props.censored_entropy_discrete_error",
    "Verif.Props.censored_entropy_discrete_partial",
    "Verif.Props.censored_entropy_coin"
   ],
   "note": "Continuous bases: exact. Discrete bases: the exact error is proved; the value is right only under a coincidence, and wrong for a fair coin without bounds (negation proved). The entropy of the truncated distribution (computed on a grid) is a parameter assumed exact."
  },
  {
   "property": "C60",
   "status": "partial",
   "theorems": [
    "Verif.Props.triangular_fit_worst",
    "Verif.Props.triangular_fit_mode_outside",
    "Verif.Props.triangular_fit_mean_partial",
    "Verif.Props.binomial_fit_impossible"
   ],
   "note": "False: the Triangular fit always has likelihood zero (proved for every non-constant sample), the Binomial fit can (witness)."
  },
  {
   "property": "C61",
   "status": "partial",
   "theorems": [
    "Verif.Props.truncated_grid",
    "Verif.Props.truncated_mean_partial",
    "Verif.Props.truncated_moments",
    "Verif.Props.truncated_median",
    "Verif.Props.truncated_mean_wrong",
    "Verif.Props.truncated_entropy_partial",
    "Verif.Props.truncated_entropy_exact",
    "Verif.Props.truncated_entropy_gap",
    "Verif.Props.truncated_entropy_wide",
    "Verif.Props.truncated_entropy_wrong",
    "Verif.Props.censored_mean_var_end_to_end"
   ],
   "note": "Exact for finite supports of at most 201 integers; for infinite supports the mean over a grid that leaves out at most 0.0002 of the probability. False for wider supports: the grid is subsampled, so the mean of the uniform distribution on 0..400 is reported too small and its entropy is NaN (negations proved). censored_mean_var_end_to_end removes the exact-moments assumption of C17. Continuous bases (trapezoid rule) are the subject of C91."
  },
  {
   "property": "C62",
   "status": "partial",
   "theorems": [
    "Verif.Props.hurdle_mean_tail",
    "Verif.Props.hurdle_median",
    "Verif.Props.hurdle_moments_partial",
    "Verif.Props.hurdle_var_without_zero",
    "Verif.Props.hurdle_var_too_small",
    "Verif.Props.hurdle_var_wrong",
    "Verif.Props.hurdle_entropy_partial",
    "Verif.Props.hurdle_entropy_gap",
    "Verif.Props.hurdle_entropy_wrong",
    "Verif.Props.mixture_skewness_kurtosis",
    "Verif.Props.mixture_entropy_partial"
   ],
   "note": "Finite supports of at most 201 integers. False for a hurdle over a base whose support does not contain zero: the variance leaves out the atom at zero (negation proved, 1/8 instead of 1/4); the entropy is NaN if the grid has an integer of probability zero (negation proved). The entropies sum over the integers between the 0.0001 and 0.9999 quantiles only. Continuous bases: C91."
  },
  {
   "property": "C63",
   "status": "partial",
   "theorems": [
    "Verif.Props.contours_shape",
    "Verif.Props.contours_levels",
    "Verif.Props.contours_exact_partial",
    "Verif.Props.contours_too_large",
    "Verif.Props.contours_uniform",
    "Verif.Props.simplex_levels_repeat"
   ],
   "note": "contours_levels holds for every non-negative array. That the region itself holds at most p needs different density values and a p not smaller than the share of the highest cell (contours_exact_partial); both restrictions are necessary (negations proved). The simplex plot can request equal contour levels (negation proved)."
  },
  {
   "property": "C64",
   "status": "partial",
   "theorems": [
    "Verif.Props.cols_rows_shape",
    "Verif.Props.dirichlet_mode_max",
    "Verif.Props.dirichlet_mode_none",
    "Verif.Props.dirichlet_marginal_moments",
    "Verif.Props.dirichlet_marginal_means",
    "Verif.Props.mvnormal_two_ways",
    "Verif.Props.mvnormal_no_mean",
    "Verif.Props.mvnormal_only_mean",
    "Verif.Props.mvnormal_both",
    "Verif.Props.mvnormal_singular",
    "Verif.Props.mvnormal_marginal",
    "Verif.Props.bary_exact",
    "Verif.Props.bary_inside",
    "Verif.Props.bary_corner_sum",
    "Verif.Props.cols_rows_fit"
   ],
   "note": "False at the edge of the triangle, where the clipped coordinates do not add up to one (negation proved), and for singular covariance matrices, which are refused (negation proved). The laws of the marginals are in C100."
  },
  {
   "property": "C65",
   "status": "partial",
   "theorems": [
    "Verif.Props.vonmises_fit_succeeds",
    "Verif.Props.vonmises_one_direction",
    "Verif.Props.vonmises_fit_optimal",
    "Verif.Props.vonmises_fit_cancelling",
    "Verif.Props.exgaussian_fit_moments",
    "Verif.Props.exg_law_skew",
    "Verif.Props.exgaussian_fit_law",
    "Verif.Props.exgaussian_fit_symmetric",
    "Verif.Props.exgaussian_fit_nan",
    "Verif.Props.exgaussian_fit_spike",
    "Verif.Props.skewnormal_start",
    "Verif.Props.skewnormal_start_nan",
    "Verif.Props.skewed_sample_fails",
    "Verif.Props.skew_fit_iff"
   ],
   "note": "VonMises: proved for every sample whose mean direction has a length between the smallest float and 1 - 3e-16, given that brentq finds a zero of a continuous function that changes its sign; for a sample of one direction there is no best concentration. ExGaussian: false for a sample skewness above two, where sigma is not a number (negation proved), and a skewness below 0.0001 is replaced by 0.0001 (negation proved); otherwise the law of the fitted distribution, with the documented density, has the three moments. SkewNormal: false for a skewness of absolute value one or more (negation proved); with optimisers that end, the samples it can be fitted to are exactly those with spread and skewness below one."
  },
  {
   "property": "C66",
   "status": "partial",
   "theorems": [
    "Verif.Props.ml_fit_optimal_partial",
    "Verif.Props.ml_beta_capped",
    "Verif.Props.ml_beta_suboptimal",
    "Verif.Props.ml_asymlaplace_capped"
   ],
   "note": "False for Beta objects given by mu and sigma or mu and nu and for AsymmetricLaplace objects given by q: the bounds of the reported parameters are applied to the canonical ones, so alpha stays below one and q below one half (negations proved). Proved for all other parametrisations. That scipy finds the global minimum is a hypothesis."
  },
  {
   "property": "C67",
   "status": "partial",
   "theorems": [
    "Verif.Props.maxent_silent_partial",
    "Verif.Props.maxent_silent_wrong",
    "Verif.Props.bounds_warn_iff_partial",
    "Verif.Props.bounds_warn_wrong",
    "Verif.Props.quartile_exact_silent",
    "Verif.Props.quartile_silent_iff",
    "Verif.Props.quartile_warning_masses",
    "Verif.Props.quartile_silent_wrong",
    "Verif.Props.quartile_discrete_warns",
    "Verif.Props.quantiles_accepted",
    "Verif.Props.quantile_target_counts",
    "Verif.Props.quantile_target_mono",
    "Verif.Props.quantiles_silent_iff"
   ],
   "note": "quartile only checks the mass between the outer quartiles: it is silent for distributions with three wrong quartiles and warns about discrete distributions with exact quartiles (negations proved). maxent counts one integer too many for a discrete distribution and a lower bound that is not an integer, and np.int64 bounds are reported not to be integers (negations proved)."
  },
  {
   "property": "C68",
   "status": "partial",
   "theorems": [
    "Verif.Props.info_values_present",
    "Verif.Props.info_lists_partial",
    "Verif.Props.info_lists_wrong",
    "Verif.Props.info_rows_equivalent_partial",
    "Verif.Props.info_rows_present",
    "Verif.Props.info_invgamma_row",
    "Verif.Props.info_precision_drifts"
   ],
   "note": "Rice, SkewNormal, SkewStudentT and ZeroInflatedNegativeBinomial have documented alternatives that info() does not list; rows with a precision rebuild a distribution with a larger sigma (negations proved)."
  },
  {
   "property": "C69",
   "status": "partial",
   "theorems": [
    "Verif.Props.prior_modifier_base",
    "Verif.Props.from_pymc_compound_partial",
    "Verif.Props.from_pymc_truncated_offset",
    "Verif.Props.from_pymc_point_mass",
    "Verif.Props.from_pymc_unknown",
    "Verif.Props.from_prior_roundtrip",
    "Verif.Props.from_prior_errors"
   ],
   "note": "Truncated HalfNormal and LogitNormal get the wrong arguments, and any mixture starting with a point mass is taken for zero inflation whatever its location and other components (negations proved). PyMC's node layout is an assumption of the specification."
  },
  {
   "property": "C70",
   "status": "partial",
   "theorems": [
    "Verif.Props.intervals_refuse",
    "Verif.Props.hdi_shows",
    "Verif.Props.summary_interval",
    "Verif.Props.summary_pair_partial",
    "Verif.Props.summary_pair_swapped",
    "Verif.Props.summary_refuses",
    "Verif.Props.summary_wrong_strings",
    "Verif.Props.decimals_idem",
    "Verif.Props.decimals_mono",
    "Verif.Props.summary_name_partial",
    "Verif.Props.summary_name_hurdle"
   ],
   "note": "Probabilities in decreasing order give swapped ends, an unknown interval name is a NameError, fmt='none' is refused although eti and hdi accept it, and the name omits the base of a Hurdle (negations proved)."
  },
  {
   "property": "C71",
   "status": "partial",
   "theorems": [
    "Verif.Props.hdi_exists",
    "Verif.Props.hdi_shortest",
    "Verif.Props.hdi_continuous",
    "Verif.Props.hdi_highest_density",
    "Verif.Props.hdi_density",
    "Verif.Props.hdi_censored_mass",
    "Verif.Props.hdi_censored_wrong"
   ],
   "note": "The numerical minimiser is assumed to return a constrained minimum whenever one exists (existence is proved). The censored case is false: the mass of both bounds is counted even when the interval leaves them out; what holds is proved exactly (hdi_censored_mass) and a witness shows the shortfall."
  },
  {
   "property": "C72",
   "status": "partial",
   "theorems": [
    "Verif.Props.to_pymc_roundtrip_partial",
    "Verif.Props.to_pymc_in_model_partial",
    "Verif.Props.to_pymc_in_model_nested",
    "Verif.Props.to_pymc_refuses",
    "Verif.Props.to_bambi_family_partial",
    "Verif.Props.to_bambi_modifier",
    "Verif.Props.to_bambi_ambiguous",
    "Verif.Props.to_bambi_refuses"
   ],
   "note": "The round trip covers the first parametrisation of each family, truncation and hurdles of families (not HalfNormal and LogitNormal, see C69). Inside a model, nested modifiers fail (negation proved). The Prior of a modified distribution does not determine it (negation proved)."
  },
  {
   "property": "C73",
   "status": "partial",
   "theorems": [
    "Verif.Props.rice_moments_attainable",
    "Verif.Props.rice_attainable",
    "Verif.Props.rice_documented",
    "Verif.Props.bessel_mean",
    "Verif.Props.rice_moments_exact",
    "Verif.Props.rice_fixed_point",
    "Verif.Props.rice_ratio",
    "Verif.Props.rice_rayleigh_wrong",
    "Verif.Props.rice_zero_std",
    "Verif.Props.weibull_mean_exact_partial",
    "Verif.Props.weibull_negative_shape",
    "Verif.Props.weibull_deviation",
    "Verif.Props.weibull_deviation_wrong"
   ],
   "note": "Rice: moments are attainable iff (mean/std)^2 >= pi/(4-pi); every attainable pair with ratio at least 1.913 is matched exactly, given only that the minimiser returns a global minimum; below it the variance is always too small (negation proved). The documented density and the Bessel formula for the mean are proved of the law. Weibull: exact mean up to sigma/mean = 2.7, exact deviation at sigma = mean only; from 2.75 on the shape is negative (negation proved). With the code's own Gamma the deviation is within 0.1% up to sigma/mean = 1.4 and within 9% up to 2; from 1.5 to 2.7 it is always too small, by at least 8% from 2 and by at least half from 2.5 (negation proved)."
  },
  {
   "property": "C74",
   "status": "proved",
   "theorems": [
    "Verif.Props.fit_history",
    "Verif.Props.fit_best",
    "Verif.Props.quartile_exact",
    "Verif.Props.pdf_best",
    "Verif.Props.quantiles_exact",
    "Verif.Props.moments_exact",
    "Verif.Props.mean_sigma_exact"
   ],
   "note": "For any optimiser that ends at a minimum within the bounds; that scipy's do is a hypothesis, not proved. BetaScaled is covered with its four parameter names (which it always has)."
  },
  {
   "property": "C75",
   "status": "partial",
   "theorems": [
    "Verif.Props.box_fit_extremes",
    "Verif.Props.refit_same_nu",
    "Verif.Props.refit_nu_matters",
    "Verif.Props.refit_same_partial",
    "Verif.Props.in_turn_partial",
    "Verif.Props.backfit_vector_partial",
    "Verif.Props.rows_fit",
    "Verif.Props.backfit_matrix_fails",
    "Verif.Props.complete_refit_fails",
    "Verif.Props.second_fit_fails",
    "Verif.Props.backfit_vector_fails",
    "Verif.Props.kumaraswamy_rows_fail"
   ],
   "note": "Proved for the families whose estimates are computed from the sample. False for the ten families that start from a numerical fit of mean and deviation (BetaBinomial, DiscreteWeibull, Kumaraswamy, LogLogistic, NegativeBinomial, SkewNormal, SkewStudentT and the zero-inflated ones): a second fit, hence a vector-valued prior, always raises (negation proved). False for matrix-valued priors, and for Kumaraswamy with two-dimensional samples (negations proved). StudentT and HalfStudentT start from the nu the object holds and are not claimed; HyperGeometric, fitted without bounds, is not claimed."
  },
  {
   "property": "C76",
   "status": "partial",
   "theorems": [
    "Verif.Props.power_read",
    "Verif.Props.call_read",
    "Verif.Props.stripComments_lines",
    "Verif.Props.calls_found_partial",
    "Verif.Props.label_partial",
    "Verif.Props.shown_bounds",
    "Verif.Props.shown_decimal",
    "Verif.Props.beta_taken",
    "Verif.Props.beta_label_fails",
    "Verif.Props.keyword_by_position",
    "Verif.Props.keyword_label_fails",
    "Verif.Props.unused_parameter_fails",
    "Verif.Props.nested_comma_fails",
    "Verif.Props.probability_label_fails",
    "Verif.Props.no_start_values_fails"
   ],
   "note": "Proved for calls with positional arguments without commas inside and brackets nested at most once, in PreliZ and PyMC models; with several uses the last one counts. False for BetaScaled and BetaBinomial, which are taken for Beta, for keyword arguments out of order, for parameters used elsewhere (KeyError), for arguments that contain a comma, for distributions without starting values such as Hurdle (KeyError), and for probabilities given through expit or exp (negations proved). Bambi models are in C107."
  },
  {
   "property": "C77",
   "status": "partial",
   "theorems": [
    "Verif.Props.return_read",
    "Verif.Props.model_read_partial",
    "Verif.Props.beta_model_fails",
    "Verif.Props.docstring_return_fails",
    "Verif.Props.same_line_fails",
    "Verif.Props.no_return_fails",
    "Verif.Props.bambi_never_returns"
   ],
   "note": "Proved for sources (comments allowed) in which every prior is assigned on a line of its own, brackets in its arguments are nested at most once, and the first return followed by a word is the statement. False for BetaScaled and BetaBinomial, which become Beta; for a return in a docstring or comment; for two assignments on one line; for `return (a, b)` (AttributeError); and for every Bambi model, whose priors are never returned (negations proved)."
  },
  {
   "property": "C78",
   "status": "partial",
   "theorems": [
    "Verif.Props.half_student_moments",
    "Verif.Props.half_student_overflow",
    "Verif.Props.half_student_nu_replaced",
    "Verif.Props.exgaussian_moments",
    "Verif.Props.mixture_moments",
    "Verif.Props.mixture_frozen",
    "Verif.Props.mixture_weights_lost",
    "Verif.Props.mixture_params_stale"
   ],
   "note": "HalfStudentT is exact for nu above 2 and without nu (nu = 100), given an exact gamma function (with the one of the package: C112); nu at most 2 is replaced by 2.1. ExGaussian misses mean and variance by exactly 1e-4 and 1e-8. The moments of a mixture are exact, but given weights are replaced by equal ones and the listed parameters are not updated (negations proved)."
  },
  {
   "property": "C79",
   "status": "partial",
   "theorems": [
    "Verif.Props.two_intervals_partial",
    "Verif.Props.one_interval_partial",
    "Verif.Props.single_value_fails",
    "Verif.Props.five_quantiles",
    "Verif.Props.fewer_quantiles",
    "Verif.Props.unordered_quantiles_fail",
    "Verif.Props.bad_levels_rejected"
   ],
   "note": "Exact for intervals of two different values; an interval of a single value, as discrete distributions have, is drawn around the whole circle (negation proved), and so are quantile levels that are not increasing. An unknown kind raises an unrelated UnboundLocalError."
  },
  {
   "property": "C80",
   "status": "partial",
   "theorems": [
    "Verif.Props.truncated_survival",
    "Verif.Props.truncated_isf_nan",
    "Verif.Props.truncated_isf_one_below",
    "Verif.Props.censored_survival_partial",
    "Verif.Props.censored_survival_upper",
    "Verif.Props.hurdle_survival_partial",
    "Verif.Props.hurdle_survival_negative",
    "Verif.Props.mixture_survival"
   ],
   "note": "Exact for truncated and mixture distributions. Inherited from the cdf: wrong exactly at a finite upper bound for censored distributions and exactly at negative points for hurdle distributions (both as iff). isf(1) of a truncated discrete distribution lies below the lower bound. isf of a mixture is in C99; isf of a hurdle of a continuous base needs a base without mass in (0, eps]."
  },
  {
   "property": "C81",
   "status": "partial",
   "theorems": [
    "Verif.Props.steps_partial",
    "Verif.Props.long_steps_fail",
    "Verif.Props.pmf_markers",
    "Verif.Props.lower_mass_marked",
    "Verif.Props.upper_mass_unmarked",
    "Verif.Props.upper_mass_unmarked_small_lower",
    "Verif.Props.unknown_support_refused"
   ],
   "note": "The steps are exact for at most 201 shown values; with more, the grid skips values and the curve is wrong at one of them (negation proved). The upper point mass of a censored distribution is only marked when the lower one is (negations proved)."
  },
  {
   "property": "C82",
   "status": "partial",
   "theorems": [
    "Verif.Props.single_target",
    "Verif.Props.random_state_ignored",
    "Verif.Props.weighted_targets",
    "Verif.Props.bad_weights_rejected",
    "Verif.Props.chosen_law"
   ],
   "note": "The chain of optimisations and the mixture law of weighted targets are exact (given independent draws, and at most the number of targets np.choose accepts). With a single target the random state has no influence: round k always uses seed k (negation proved)."
  },
  {
   "property": "C83",
   "status": "partial",
   "theorems": [
    "Verif.Props.alpha_range",
    "Verif.Props.hist_forgets_colours",
    "Verif.Props.ecdf_heights",
    "Verif.Props.kept_runs",
    "Verif.Props.curve_sessions_partial",
    "Verif.Props.first_hist_partial",
    "Verif.Props.hist_after_curve_fails",
    "Verif.Props.curve_after_hist_fails",
    "Verif.Props.hist_dropped_fails",
    "Verif.Props.second_hist_bins",
    "Verif.Props.unnamed_prior_fails",
    "Verif.Props.variable_shown"
   ],
   "note": "Holds for sessions of curves and for the first histogram. Negations proved: switching between curves and histograms raises an error (the keyword dictionary is shared between drawings), a histogram fails when a run was dropped, the bins of integers stay those of the first histogram, group='prior' without a variable name fails."
  },
  {
   "property": "C84",
   "status": "partial",
   "theorems": [
    "Verif.Props.session_synced_partial",
    "Verif.Props.session_reports_partial",
    "Verif.Props.boxes_select",
    "Verif.Props.axis_length",
    "Verif.Props.large_grid_shrinks",
    "Verif.Props.resize_keeps_dist",
    "Verif.Props.resize_not_reported",
    "Verif.Props.deselect_keeps_curve",
    "Verif.Props.failed_fit_stale"
   ],
   "note": "Holds after a click until the axis or size is changed, for grids of 2 to 100 rows and columns, clicks not just under the grid and fits that raise no error. Negations proved: changing the axis or the size leaves dist and inputs of the removed chips; deselecting all families leaves the old curve; a fit that raises an error leaves the old attributes; more than 100 columns are cut at the first change; x_max can be set equal to x_min."
  },
  {
   "property": "C85",
   "status": "partial",
   "theorems": [
    "Verif.Props.relError_meaning",
    "Verif.Props.quartile_choice",
    "Verif.Props.prepared",
    "Verif.Props.betascaled_needs_bounds",
    "Verif.Props.median_not_compared",
    "Verif.Props.discrete_quartile_counts_below",
    "Verif.Props.widget_session_partial",
    "Verif.Props.widget_boxes",
    "Verif.Props.extra_not_observed"
   ],
   "note": "The choice minimises the error of the probability between the first and third quartile. Negations proved: the median and the tails do not enter, so an exactly matching family can lose; for discrete families a non-integer first quartile is taken one too low; BetaScaled parameters without both bounds make the whole fit fail; changed extra parameters have no effect until a click."
  },
  {
   "property": "C86",
   "status": "partial",
   "theorems": [
    "Verif.Props.distance_octiles",
    "Verif.Props.quantile_mono",
    "Verif.Props.quantile_splits",
    "Verif.Props.octiles_perm",
    "Verif.Props.quantile_affine",
    "Verif.Props.distance_comm",
    "Verif.Props.bound_trimmed",
    "Verif.Props.bound_equal_nan",
    "Verif.Props.bound_two_equal_nan",
    "Verif.Props.target_display",
    "Verif.Props.nearest_not_displayed",
    "Verif.Props.return_prior"
   ],
   "note": "Quantiles (linear interpolation), their invariances and the range of the trimmed mean are proved. Negations proved: equal distances make the trimmed mean NaN; with a target the second to tenth nearest samples are shown and the nearest never is. The KD-tree itself is external (its order is a parameter)."
  },
  {
   "property": "C87",
   "status": "partial",
   "theorems": [
    "Verif.Props.mle_objects_partial",
    "Verif.Props.mle_outcome",
    "Verif.Props.mle_twice",
    "Verif.Props.mle_categorical",
    "Verif.Props.mle_warns",
    "Verif.Props.mle_refit_stale",
    "Verif.Props.mle_pymc_lost"
   ],
   "note": "For distinct objects every one ends as the fit it would get alone; with repetitions, and when a fit raises an error, the exact outcome is described (mle_outcome). Negations proved: an object that was fitted before is tested against its old support, so a Uniform keeps its old parameters for a wider sample, without a warning; the fits of PyMC variables cannot be read by the caller."
  },
  {
   "property": "C88",
   "status": "proved",
   "theorems": [
    "Verif.Props.binomial_count",
    "Verif.Props.betabinomial_count",
    "Verif.Props.zibinomial_count",
    "Verif.Props.hypergeometric_counts",
    "Verif.Props.discreteuniform_limits",
    "Verif.Props.xvals_integer_part",
    "Verif.Props.integerPart_unique"
   ],
   "note": "Counts are real numbers here; the range of np.int64 is not modelled."
  },
  {
   "property": "C89",
   "status": "partial",
   "theorems": [
    "Verif.Props.truncated_sample_law",
    "Verif.Props.hurdle_sample_law",
    "Verif.Props.hurdle_sample_continuous",
    "Verif.Props.censored_sample_law",
    "Verif.Props.mixture_sample_count",
    "Verif.Props.mixture_first_component",
    "Verif.Props.sample_shapes"
   ],
   "note": "Partial: the entries of a Mixture sample are grouped by component, so a single entry does not follow the mixture and the requested shape is lost unless it has one dimension (negations proved); on continuous bases Hurdle draws exceed machine epsilon instead of zero. The uniform numbers are idealised as continuous on (0,1)."
  },
  {
   "property": "C90",
   "status": "partial",
   "theorems": [
    "Verif.Props.hdi_switch",
    "Verif.Props.hdi_long_covers_partial",
    "Verif.Props.hdi_long_not_shortest",
    "Verif.Props.hdi_long_infeasible",
    "Verif.Props.hdi_long_dice"
   ],
   "note": "Partial: covered mass is proved when the minimiser meets its equality constraint. Negations proved: with a step function the constraint can be met for countably many masses only (for a uniform distribution only multiples of one value's probability), and when it is met the reported interval contains one value too many whenever its lower end is not negative. Censored discrete distributions are not covered."
  },
  {
   "property": "C91",
   "status": "partial",
   "theorems": [
    "Verif.Props.truncated_ends",
    "Verif.Props.truncated_mean_cont",
    "Verif.Props.truncated_moments_cont",
    "Verif.Props.truncated_standard_cont",
    "Verif.Props.truncated_entropy_cont",
    "Verif.Props.truncated_uniform",
    "Verif.Props.hurdle_ends_cont",
    "Verif.Props.hurdle_mean_cont",
    "Verif.Props.hurdle_moments_cont",
    "Verif.Props.hurdle_var_cont_wrong",
    "Verif.Props.hurdle_entropy_cont",
    "Verif.Props.hurdle_entropy_cont_wrong",
    "Verif.Props.mixture_standard_cont",
    "Verif.Props.mixture_entropy_cont"
   ],
   "note": "Partial: error bounds need a smooth density on the grid's range (and bounded support for everything but means and entropies). Negations proved: the variance of a truncated uniform distribution is always too large, by (u-l)^2/(6*999^2); the variance of a Hurdle of a continuous base misses the mass at zero (Uniform(0,1) with psi 1/2: less than 0.08 instead of 5/48), and so does its entropy (less than 0.36 instead of log 2)."
  },
  {
   "property": "C92",
   "status": "proved",
   "theorems": [
    "Verif.Props.wiring_table",
    "Verif.Props.methods_defined",
    "Verif.Props.methods_missing",
    "Verif.Props.methods_once",
    "Verif.Props.families_once",
    "Verif.Props.delegates",
    "Verif.Props.updated_params",
    "Verif.Props.method_call",
    "Verif.Props.method_history",
    "Verif.Props.passed_injective",
    "Verif.Props.zi_pdf",
    "Verif.Props.zi_binomial_pdf",
    "Verif.Props.zi_binomial_nan"
   ],
   "note": "The table of calls was extracted mechanically from the text of the 44 files. Counts are whole numbers in passed_injective. Also shown: ZeroInflatedBinomial alone answers 0 to nan."
  },
  {
   "property": "C93",
   "status": "partial",
   "theorems": [
    "Verif.Props.names_recognised",
    "Verif.Props.modifiers_not_recognised",
    "Verif.Props.names_unambiguous",
    "Verif.Props.extract_ok_iff",
    "Verif.Props.extract_found",
    "Verif.Props.text_recognised",
    "Verif.Props.candidates_first",
    "Verif.Props.candidates_auto",
    "Verif.Props.candidates_scoped",
    "Verif.Props.families_agree_partial",
    "Verif.Props.ppe_auto_fails",
    "Verif.Props.p2p_auto_fits",
    "Verif.Props.engine_recognised",
    "Verif.Props.engine_mismatch",
    "Verif.Props.engine_unchecked"
   ],
   "note": "Partial because two parts are false: ppe with new_families='auto' offers the classes instead of instances and fails with a TypeError on every scalar variable; an unknown engine name is refused only after everything has been fitted, with a NameError. The fits themselves are abstract here."
  },
  {
   "property": "C94",
   "status": "partial",
   "theorems": [
    "Verif.Props.logit_of_expit",
    "Verif.Props.expit_of_logit",
    "Verif.Props.xlogx_value",
    "Verif.Props.categorical_from_p",
    "Verif.Props.categorical_from_logit",
    "Verif.Props.categorical_same",
    "Verif.Props.categorical_probs",
    "Verif.Props.categorical_sum_wrong",
    "Verif.Props.categorical_sum_two_partial",
    "Verif.Props.categorical_arguments",
    "Verif.Props.categorical_update_support",
    "Verif.Props.categorical_calls",
    "Verif.Props.categorical_methods"
   ],
   "note": "Partial because the last sentence is false: log odds are turned into probabilities one by one (expit), so three or more log odds that are not negative sum to at least 3/2 and are accepted (categorical_sum_wrong); with two categories the sum is one exactly for opposite log odds. Probabilities that do not sum to one are accepted as well, and an update with another length keeps the old support."
  },
  {
   "property": "C95",
   "status": "partial",
   "theorems": [
    "Verif.Props.search_file",
    "Verif.Props.file_keys",
    "Verif.Props.citations_all",
    "Verif.Props.citations_keys",
    "Verif.Props.citations_file",
    "Verif.Props.doc_keys",
    "Verif.Props.methods_keys",
    "Verif.Props.citations_string",
    "Verif.Props.reference_file",
    "Verif.Props.citations_default",
    "Verif.Props.citations_cited"
   ],
   "note": "Partial because the last sentence is false: a string (which the docstring of citations allows) is iterated over character by character and gives an empty text (citations_string). Regular expressions are modelled as matchers for keys without special characters; the five entries of reference.bib are part of the model, and are shown to meet the conditions on a file."
  },
  {
   "property": "C96",
   "status": "partial",
   "theorems": [
    "Verif.Props.kind_names",
    "Verif.Props.plot_kind",
    "Verif.Props.plot_univariate",
    "Verif.Props.plot_method_univariate",
    "Verif.Props.plot_method_multivariate",
    "Verif.Props.plot_multivariate",
    "Verif.Props.plot_multivariate_keywords",
    "Verif.Props.plot_unfrozen",
    "Verif.Props.plot_scalar",
    "Verif.Props.plot_array_refused",
    "Verif.Props.plot_array_single",
    "Verif.Props.plot_pdf_arrays",
    "Verif.Props.plot_pdf_lengths",
    "Verif.Props.plot_pdf_style",
    "Verif.Props.plot_pmf_style",
    "Verif.Props.plot_pmf_style_lost"
   ],
   "note": "Partial because the last sentence is false three times: further keywords are a TypeError for Dirichlet and MvNormal (plot_multivariate_keywords), only plot_pdf accepts arrays and the loops over parameters in the other four methods are never reached (plot_array_refused), and of a discrete distribution only the first curve has the line and marker asked for, because they are taken out of a shared dictionary (plot_pmf_style, plot_pmf_style_lost)."
  },
  {
   "property": "C97",
   "status": "partial",
   "theorems": [
    "Verif.Props.panels_new",
    "Verif.Props.panels_given_partial",
    "Verif.Props.panels_given_title",
    "Verif.Props.panels_few",
    "Verif.Props.panels_one",
    "Verif.Props.panels_joint",
    "Verif.Props.panels_joint_zero",
    "Verif.Props.marginal_drawn",
    "Verif.Props.moments_values",
    "Verif.Props.moments_refused",
    "Verif.Props.label_moments",
    "Verif.Props.label_legend",
    "Verif.Props.label_letters",
    "Verif.Props.pp_panels_new",
    "Verif.Props.pp_panels_again",
    "Verif.Props.pp_shared_limits",
    "Verif.Props.pooled_selected_partial",
    "Verif.Props.pooled_first",
    "Verif.Props.references_lines",
    "Verif.Props.references_numpy"
   ],
   "note": "Partial because the last sentence is false: with axes given and the default legend='title' an unbound variable is used after drawing (panels_given_title), too few axes silently lose coordinates (panels_few), dimension one is an AttributeError (panels_one), unknown letters are a ValueError although documented as ignored (label_letters), and with only sample 0 selected all samples are pooled (pooled_first)."
  },
  {
   "property": "C98",
   "status": "partial",
   "theorems": [
    "Verif.Props.start_inside",
    "Verif.Props.start_frozen",
    "Verif.Props.start_update",
    "Verif.Props.start_missing",
    "Verif.Props.start_wrapped_partial",
    "Verif.Props.start_wrapped_bounds",
    "Verif.Props.start_wrapped_taken",
    "Verif.Props.start_ordered",
    "Verif.Props.start_sliders",
    "Verif.Props.interactive_draws",
    "Verif.Props.interactive_other",
    "Verif.Props.interactive_dirichlet_partial",
    "Verif.Props.interactive_dirichlet_ppf",
    "Verif.Props.interactive_categorical",
    "Verif.Props.interactive_categorical_logit"
   ],
   "note": "Partial because the last sentence is false: MvNormal, Mixture and Hurdle have no start values (start_missing), for Truncated and Censored of BetaScaled, DiscreteUniform, Triangular, TruncatedNormal and Uniform the bounds of the base are taken for those of the wrapper (start_wrapped_bounds), Dirichlet draws the cdf for kind='ppf' (interactive_dirichlet_ppf), and a Categorical given by logit_p is a TypeError (interactive_categorical_logit)."
  },
  {
   "property": "C99",
   "status": "partial",
   "theorems": [
    "Verif.Props.mixture_ppf_between",
    "Verif.Props.mixture_ppf_near",
    "Verif.Props.mixture_ppf_continuous",
    "Verif.Props.mixture_ppf_edges",
    "Verif.Props.mixture_ppf_shape",
    "Verif.Props.mixture_ppf_zero_weight",
    "Verif.Props.mixture_ppf_integers",
    "Verif.Props.brentNear_exists"
   ],
   "note": "Partial because the last sentence is false: a component of weight zero still counts for ppf(1) (mixture_ppf_zero_weight); a list of one level gives a number (mixture_ppf_shape); integer levels raise OverflowError for an unbounded mixture, ValueError outside [0, 1], and cut the end of the support to a whole number (mixture_ppf_integers). brentq is trusted to return a point next to a change of sign, within its default tolerances."
  },
  {
   "property": "C100",
   "status": "proved",
   "theorems": [
    "Verif.Props.dirichlet_coordinates",
    "Verif.Props.dirichlet_marginal_law",
    "Verif.Props.dirichlet_marginal_one",
    "Verif.Props.dirichlet_joint_density",
    "Verif.Props.simplex_gammaln",
    "Verif.Props.mvnormal_marginal_law",
    "Verif.Props.joint_box_mass",
    "Verif.Props.mgrid_covers",
    "Verif.Props.joint_normal_drawn",
    "Verif.Props.joint_normal_levels",
    "Verif.Props.joint_normal_small"
   ],
   "note": "The Dirichlet law is specified as the law of the proportions of independent gamma variables, and shown to have the density that is drawn. In dimension one the second parameter of the Beta is zero (dirichlet_marginal_one)."
  },
  {
   "property": "C101",
   "status": "partial",
   "theorems": [
    "Verif.Props.truncated_mode",
    "Verif.Props.truncated_mode_outside",
    "Verif.Props.truncated_mode_finite",
    "Verif.Props.censored_mode",
    "Verif.Props.hurdle_mode_partial",
    "Verif.Props.hurdle_mode_never_zero",
    "Verif.Props.hurdle_mode_wrong",
    "Verif.Props.truncated_mode_wide",
    "Verif.Props.truncated_mode_wrong",
    "Verif.Props.findsMin_exists",
    "Verif.Props.family_mode_cont",
    "Verif.Props.truncated_mode_cont",
    "Verif.Props.censored_mode_cont",
    "Verif.Props.censored_mode_misses_atom",
    "Verif.Props.hurdle_mode_misses_atom",
    "Verif.Props.mode_needs_ends"
   ],
   "note": "False without the restrictions: a hurdle over a base without zero never reports zero (hurdle_mode_wrong), on more than 201 integers some value is never reported (truncated_mode_wrong), and over a continuous base the mode of a censored or hurdle distribution has probability zero although a bound, or zero, has positive probability. For continuous distributions scipy's bounded minimiser is trusted to find the peak of a function with one peak."
  },
  {
   "property": "C102",
   "status": "partial",
   "theorems": [
    "Verif.Props.settings_objects_independent",
    "Verif.Props.settings_objects_valid",
    "Verif.Props.find_all_subset",
    "Verif.Props.copy_contents",
    "Verif.Props.context_exit_any_order",
    "Verif.Props.context_enter_nothing",
    "Verif.Props.context_reused",
    "Verif.Props.contexts_crossed",
    "Verif.Props.settings_iteration",
    "Verif.Props.settings_three",
    "Verif.Props.settings_text"
   ],
   "note": "Partial because the last sentence is false: settings are changed when the context object is created, so a second with block with the same object runs with the original settings (context_reused), and contexts that are left in the order of their creation leave the settings of the first in force (contexts_crossed)."
  },
  {
   "property": "C103",
   "status": "partial",
   "theorems": [
    "Verif.Props.mvnormal_summary_law",
    "Verif.Props.mvnormal_attributes",
    "Verif.Props.mvnormal_mean_raises",
    "Verif.Props.mvnormal_frozen_valid",
    "Verif.Props.mvnormal_unset",
    "Verif.Props.mvnormal_session",
    "Verif.Props.dirichlet_summary_law",
    "Verif.Props.dirichlet_refused",
    "Verif.Props.dirichlet_session",
    "Verif.Props.multivariate_grid",
    "Verif.Props.dirichlet_xvals",
    "Verif.Props.multivariate_support",
    "Verif.Props.multivariate_xvals_raise"
   ],
   "note": "Partial because the last sentence is false: mean() of a specified MvNormal is a TypeError (mvnormal_mean_raises), and xvals('restricted') of both, and xvals('full') of an MvNormal, are AttributeErrors (multivariate_xvals_raise)."
  },
  {
   "property": "C104",
   "status": "partial",
   "theorems": [
    "Verif.Props.start_bounds_attribute",
    "Verif.Props.ml_bounds_attribute",
    "Verif.Props.fit_bounds_attribute",
    "Verif.Props.support_documented",
    "Verif.Props.support_narrows",
    "Verif.Props.discreteuniform_widens",
    "Verif.Props.hypergeometric_refit_support_wrong",
    "Verif.Props.incomplete_reparam_support",
    "Verif.Props.params_support_length",
    "Verif.Props.params_support_sound",
    "Verif.Props.params_support_full",
    "Verif.Props.hypergeometric_box",
    "Verif.Props.hypergeometric_box_stale",
    "Verif.Props.bernoulli_box_wrong",
    "Verif.Props.negativebinomial_box_wrong",
    "Verif.Props.beta_box_wrong",
    "Verif.Props.exgaussian_box_short",
    "Verif.Props.info_support_shown",
    "Verif.Props.info_support_inexact"
   ],
   "note": "Partial because parts are false, with witnesses: a HyperGeometric refitted to numbers that are not whole keeps them in its support; a frozen Uniform re-parametrised with one argument stays frozen with an unbounded support; completing DiscreteUniform(lower=0.5) widens its support; the intervals of HyperGeometric end at an old N or None; Bernoulli's logit_p has the interval of p; p of the negative binomials has no upper end; Beta's intervals admit unattainable pairs mu, sigma; ExGaussian's nu starts at 1e-4; info() shows ends below 1e-10 as 0. ZeroInflatedBinomial's docstring has the support of all naturals; the values of the binomial part are taken instead. Categorical (vector parameter) is not covered."
  },
  {
   "property": "C105",
   "status": "partial",
   "theorems": [
    "Verif.Props.plot_moment_letters",
    "Verif.Props.maxent_plot_shows",
    "Verif.Props.maxent_default_plot",
    "Verif.Props.maxent_ax_not_used",
    "Verif.Props.bounds_colour_continuous",
    "Verif.Props.bounds_colour_discrete",
    "Verif.Props.bounds_colour_intervals",
    "Verif.Props.bounds_colour_one_level",
    "Verif.Props.one_level_fails",
    "Verif.Props.mle_default_plot",
    "Verif.Props.mle_options_fail",
    "Verif.Props.names_no_letters",
    "Verif.Props.combine_plot",
    "Verif.Props.match_plot_dist",
    "Verif.Props.match_ax_not_used",
    "Verif.Props.match_plot_array",
    "Verif.Props.match_ax_keyword_fails",
    "Verif.Props.match_default_plot",
    "Verif.Props.dirichlet_plot",
    "Verif.Props.dirichlet_plot_fails"
   ],
   "note": "Where it holds: everything drawn is on one axes, chosen by plot_kwargs['ax'] (maxent, quartile), by ax (match_* from data, dirichlet_mode), else active or new; options apply to the curve. Proved false in the code: ax is ignored by maxent, quartile, mle, combine and by match_* from a distribution; any plot_pdf option passed to mle or combine is a ValueError; match_* from data returns None instead of the axes; bounds of discrete distributions are grey, also with one level, which on new axes without baseline is an IndexError."
  },
  {
   "property": "C106",
   "status": "proved",
   "theorems": [
    "Verif.Props.moments_of_law",
    "Verif.Props.matches_iff_law",
    "Verif.Props.location_scale_law",
    "Verif.Props.positive_law",
    "Verif.Props.one_parameter_law",
    "Verif.Props.mu_sigma_law",
    "Verif.Props.uniform_law_not_exact",
    "Verif.Props.uniform_law_partial",
    "Verif.Props.beta_law_partial",
    "Verif.Props.beta_law_clamped",
    "Verif.Props.studentt_law_partial",
    "Verif.Props.studentt_law_not_exact",
    "Verif.Props.asym_laplace_documented_law",
    "Verif.Props.beta_scaled_documented_variance",
    "Verif.Props.studentt_documented_variance"
   ],
   "note": "Integrals over the line (Lebesgue) and sums over the integers, not formulas. Families outside the statement: Uniform, Beta and BetaScaled with small shapes, StudentT without nu above 2 miss the request (negations under the law proved). AsymmetricLaplace is read with b as a scale; under the printed density (b a rate) the fit is wrong, proved. The printed variances of BetaScaled and StudentT are wrong except for length one and sigma one, proved."
  },
  {
   "property": "C107",
   "status": "partial",
   "theorems": [
    "Verif.Props.prior_arguments_iff",
    "Verif.Props.priors_found_partial",
    "Verif.Props.prior_label_partial",
    "Verif.Props.prior_by_position",
    "Verif.Props.prior_unused_fails",
    "Verif.Props.prior_hidden",
    "Verif.Props.prior_order_fails",
    "Verif.Props.prior_hidden_fails",
    "Verif.Props.prior_keyword_fails"
   ],
   "note": "The argument texts that are read are exactly those of the regular expression (iff). Proved for priors whose keywords are the first parameters of the distribution in documented order, with names or whole numbers as values, no space before a comma and no keyword called like a parameter of the function; with several uses the last counts. False in another order (the position decides), for values with any other character such as a decimal point (the prior is not found, KeyError), for a space before a comma, and for keywords called like a parameter (negations proved)."
  },
  {
   "property": "C108",
   "status": "partial",
   "theorems": [
    "Verif.Props.comments_ignored",
    "Verif.Props.explorer_opens",
    "Verif.Props.explorer_opens_if",
    "Verif.Props.nan_call_fails",
    "Verif.Props.engine_ignored",
    "Verif.Props.engine_not_used",
    "Verif.Props.hash_in_string_fails"
   ],
   "note": "All but the requested engine is proved, for comments on lines without another `#`. The argument `engine` is ignored (negation with a PyMC model proved). A `#` inside a string is taken for a comment, so that a model with a variable named \"#1\" raises KeyError (proved). The layout of the widgets is not modelled."
  },
  {
   "property": "C109",
   "status": "proved",
   "theorems": [
    "Verif.Props.tn_bounds",
    "Verif.Props.tn_frozen",
    "Verif.Props.tn_frozen_stays",
    "Verif.Props.tn_free",
    "Verif.Props.tn_elicit",
    "Verif.Props.tn_two_given",
    "Verif.Props.tn_documented",
    "Verif.Props.tn_moments",
    "Verif.Props.tn_mle_ignores",
    "Verif.Props.tn_mle_drops_bound"
   ],
   "note": "Extended reals throughout, NaN not represented; the optimiser's answer is arbitrary. tn_two_given records that TruncatedNormal(mu, sigma) has nothing left to search over and is not complete either; tn_frozen_stays that an object complete once stays marked so."
  },
  {
   "property": "C110",
   "status": "proved",
   "theorems": [
    "Verif.Props.printed_number",
    "Verif.Props.printed_exact",
    "Verif.Props.printed_reads",
    "Verif.Props.printed_incomplete",
    "Verif.Props.exactNames_clean",
    "Verif.Props.printed_family",
    "Verif.Props.printed_missing",
    "Verif.Props.printed_missing_reached",
    "Verif.Props.printed_not_injective",
    "Verif.Props.printed_names_clash",
    "Verif.Props.printed_splits",
    "Verif.Props.printed_incomplete_refused"
   ],
   "note": "The per-family theorem excludes objects given by a precision (the general theorem printed_reads covers their text). Proved as facts beside the property: an object marked complete with a parameter None cannot be printed (reached by a refused maxent), Uniform(0, 1000) and Uniform(0, 1001) print alike, Truncated(Normal) prints under the name of TruncatedNormal, mixtures lose their number of components in the name, an incomplete distribution makes the model writers fail."
  },
  {
   "property": "C111",
   "status": "proved",
   "theorems": [
    "Verif.Props.gamma_accuracy",
    "Verif.Props.gammaln_accuracy",
    "Verif.Props.weibull_mean_accuracy",
    "Verif.Props.simplex_accuracy"
   ],
   "note": "In exact arithmetic: rounding of floats and the overflow of the power in gamma for arguments above about 143 are outside the model. The proof compares the increments of the error with those of a rational function; the second derivative of the difference is a quotient of polynomials with nonnegative coefficients (computed by the kernel), and Stirling's formula gives the limit at infinity."
  },
  {
   "property": "C112",
   "status": "partial",
   "theorems": [
    "Verif.Props.half_student_documented",
    "Verif.Props.ex_gaussian_documented",
    "Verif.Props.half_student_fit_accuracy",
    "Verif.Props.half_student_fit_large",
    "Verif.Props.half_student_fit_wrong",
    "Verif.Props.ex_gaussian_fit_law"
   ],
   "note": "Documented moments proved of the documented densities. HalfStudentT: variance within 4e-12 (relative) up to 279 degrees of freedom; above, where Gamma overflows, within 4/(nu-2), and from 300 on too large by at least 2/(nu-2) (negation proved). ExGaussian: mean too large by exactly 1e-4, variance by 1e-8 (negation proved). Rounding is not modelled."
  },
  {
   "property": "C113",
   "status": "partial",
   "theorems": [
    "Verif.Props.table_shows",
    "Verif.Props.table_exists_iff",
    "Verif.Props.end_reads",
    "Verif.Props.table_family",
    "Verif.Props.table_arrays_wrong",
    "Verif.Props.catalog_text",
    "Verif.Props.catalog_html",
    "Verif.Props.catalog_lists",
    "Verif.Props.catalog_info_partial",
    "Verif.Props.catalog_info_wrong",
    "Verif.Props.table_numbers"
   ],
   "note": "False in two places: a distribution with array-valued bounds (Uniform, Pareto, ...) can be printed but has no table (ValueError), and catalog.info raises TypeError for the four modifiers the catalogue lists. The mean and the deviation are shown within five percent (table_numbers)."
  },
  {
   "property": "C114",
   "status": "partial",
   "theorems": [
    "Verif.Props.ppa_frames",
    "Verif.Props.ppa_frames_open",
    "Verif.Props.ppa_clicks_toggle",
    "Verif.Props.ppa_press",
    "Verif.Props.ppa_recovers",
    "Verif.Props.ppa_window",
    "Verif.Props.ppa_after_return"
   ],
   "note": "Partial because the last sentence is false: once 'return prior' has shown its result the figure has at most one panel left, and later displays of up to nine samples are recorded as shown (ppa_after_return). Panels still chosen when 'return prior' is pressed are not followed."
  },
  {
   "property": "C115",
   "status": "partial",
   "theorems": [
    "Verif.Props.maxent_text_partial",
    "Verif.Props.maxent_text_exact",
    "Verif.Props.quartile_text",
    "Verif.Props.match_text",
    "Verif.Props.moments_text",
    "Verif.Props.quantiles_text",
    "Verif.Props.maxent_text_wrong",
    "Verif.Props.quartile_text_wrong",
    "Verif.Props.moments_text_repeated"
   ],
   "note": "Partial because the last sentence is false: maxent can warn that the requested mass is 0.94 but the computed one is 0.94 (maxent_text_wrong) and quartile that the expected 0.25, 0.5, 0.75 came out as 0.25, 0.5, 0.75 (quartile_text_wrong). With a repeated letter and an array match_moments ends in IndexError instead of a message (moments_text_repeated). maxent_text_partial: for a discrete distribution the lower end is an integer, otherwise the computed mass is that of another interval."
  },
  {
   "property": "C116",
   "status": "proved",
   "theorems": [
    "Verif.Props.centred_best",
    "Verif.Props.fixed_scale_two",
    "Verif.Props.fixed_location_one",
    "Verif.Props.quartiles_iff",
    "Verif.Props.quantiles_iff",
    "Verif.Props.maxent_centred",
    "Verif.Props.mass_one_unmet",
    "Verif.Props.tiny_mass_unchecked",
    "Verif.Props.quartile_halfway"
   ],
   "note": "Densities are the documented ones, integrated over the real line; the optimiser's runs are inputs. Two limits of the code are proved too: a mass of one is accepted though no member has it (mass_one_unmet), and the check of the runs uses an absolute tolerance of 1e-4, so for smaller masses any wide member passes and is preferred (tiny_mass_unchecked)."
  },
  {
   "property": "C117",
   "status": "proved",
   "theorems": [
    "Verif.Props.half_entropy",
    "Verif.Props.half_units",
    "Verif.Props.half_from_zero",
    "Verif.Props.half_two",
    "Verif.Props.half_peak_scale",
    "Verif.Props.exponential_reach",
    "Verif.Props.half_cauchy_reach",
    "Verif.Props.maxent_half",
    "Verif.Props.maxent_half_answer",
    "Verif.Props.maxent_half_unmet",
    "Verif.Props.half_quartiles_iff",
    "Verif.Props.exponential_quartiles",
    "Verif.Props.quartile_half"
   ],
   "note": "The documented densities; runs of the optimiser as data (what each completed run ends at), the check and the choice as in C27; quartile with an optimiser that finds the minimum (C74)."
  },
  {
   "property": "C118",
   "status": "proved",
   "theorems": [
    "Verif.Props.count_entropy",
    "Verif.Props.count_from_first",
    "Verif.Props.count_two",
    "Verif.Props.poisson_peak",
    "Verif.Props.geometric_reach",
    "Verif.Props.maxent_count",
    "Verif.Props.maxent_count_answer",
    "Verif.Props.maxent_count_unmet"
   ],
   "note": "The documented probabilities; runs of the optimiser as data (what each completed run ends at), the check and the choice as in C27; the entropy is that of the probabilities, a sum over all counts (the code takes it from the external package)."
  },
  {
   "property": "C119",
   "status": "partial",
   "theorems": [
    "Verif.Props.location_median_mode",
    "Verif.Props.maxent_fixed_stat",
    "Verif.Props.fixed_stat_centre_partial",
    "Verif.Props.fixed_stat_flat_partial",
    "Verif.Props.fixed_stat_units",
    "Verif.Props.fixed_stat_lost",
    "Verif.Props.fixed_stat_outside",
    "Verif.Props.fixed_stat_far"
   ],
   "note": "False in the code: the distance of the statistic from its target is subtracted from the error of the mass, so a distribution with too much mass and another location passes the check; in units in which bounds and target are small numbers it has the larger entropy and is returned without a warning (fixed_stat_units, fixed_stat_lost). Proved where it holds: target at the centre of the interval, or density of the answer nowhere above one (_partial). Runs of the optimiser are data, as in C27."
  },
  {
   "property": "C120",
   "status": "proved",
   "theorems": [
    "Verif.Props.two_quartiles",
    "Verif.Props.two_attained",
    "Verif.Props.quartile_two"
   ],
   "note": "Proved from the documented densities (the distribution functions are computed by integration). The base cdf is assumed to be that of the documented density and the optimiser to find the minimum. For Uniform a search that ends at bounds in the wrong order is excluded: nothing is documented there."
  },
  {
   "property": "C121",
   "status": "proved",
   "theorems": [
    "Verif.Props.skew_right",
    "Verif.Props.skew_quartiles",
    "Verif.Props.doc_gamma_quartiles",
    "Verif.Props.doc_half_quartiles",
    "Verif.Props.quartile_gamma_left"
   ],
   "note": "From the documented densities: the density and its mirror image in the median cross once. The two documented examples cannot be met."
  },
  {
   "property": "C122",
   "status": "proved",
   "theorems": [
    "Verif.Props.best_iff_hdi",
    "Verif.Props.hdi_best",
    "Verif.Props.maxent_hdi",
    "Verif.Props.asymmetric_best",
    "Verif.Props.shift_candidate"
   ],
   "note": "Documented densities; the optimiser enters as the list of its runs."
  },
  {
   "property": "C123",
   "status": "proved",
   "theorems": [
    "Verif.Props.match_line",
    "Verif.Props.match_own",
    "Verif.Props.match_default",
    "Verif.Props.match_two",
    "Verif.Props.match_units",
    "Verif.Props.match_half",
    "Verif.Props.line_increasing"
   ],
   "note": "ppf is taken to return a value with the requested probability below it under the documented density; the optimiser is taken to find the minimum within the bounds."
  },
  {
   "property": "C124",
   "status": "proved",
   "theorems": [
    "Verif.Props.has_var_iff",
    "Verif.Props.mv_iff",
    "Verif.Props.mv_attained",
    "Verif.Props.match_mv",
    "Verif.Props.match_mv_own",
    "Verif.Props.match_mv_line",
    "Verif.Props.half_mv",
    "Verif.Props.match_mv_half"
   ],
   "note": "moments() is taken to report the mean and the variance of the documented law where they exist, and otherwise something other than the target; the optimiser is taken to find the minimum within the bounds."
  },
  {
   "property": "C125",
   "status": "proved",
   "theorems": [
    "Verif.Props.widest",
    "Verif.Props.widest_entropy",
    "Verif.Props.uniform_free",
    "Verif.Props.triangular_free",
    "Verif.Props.maxent_wide",
    "Verif.Props.maxent_wide_any",
    "Verif.Props.uniform_lower_given"
   ],
   "note": "cdf and entropy are taken to be those of the documented densities; the runs of SLSQP are arbitrary (completed ones end at proper parameters)."
  },
  {
   "property": "C126",
   "status": "partial",
   "theorems": [
    "Verif.Props.modified_elicit",
    "Verif.Props.modified_keeps_own",
    "Verif.Props.modified_base_reported",
    "Verif.Props.base_values_seen",
    "Verif.Props.base_values_unseen",
    "Verif.Props.base_values_replaced",
    "Verif.Props.hurdle_psi_not_free",
    "Verif.Props.other_names_refused",
    "Verif.Props.modified_fixed_params_refused",
    "Verif.Props.modified_fixed_params_unbound",
    "Verif.Props.modified_refused_again",
    "Verif.Props.uniform_nothing_free",
    "Verif.Props.mixture_refused"
   ],
   "note": "Keeping the given parameters, bounds and proportion is proved for all patterns given to the modifier; the cases in which the property fails are proved too. The moment matching of the base is any function that gives every parameter of the base a value; the search is arbitrary; attributes set by a failing call during the search are not followed."
  },
  {
   "property": "C127",
   "status": "proved",
   "theorems": [
    "Verif.Props.discrete_uniform_mass",
    "Verif.Props.discrete_uniform_entropy",
    "Verif.Props.discrete_uniform_rational",
    "Verif.Props.discrete_uniform_attained",
    "Verif.Props.discrete_uniform_best",
    "Verif.Props.discrete_uniform_gap",
    "Verif.Props.maxent_discrete_uniform",
    "Verif.Props.maxent_discrete_uniform_first"
   ],
   "note": "cdf and entropy are taken to be those of the documented probabilities; the runs of SLSQP are arbitrary (completed ones end at proper parameters)."
  },
  {
   "property": "C128",
   "status": "partial",
   "theorems": [
    "Verif.Props.moments_report",
    "Verif.Props.lmoments_report",
    "Verif.Props.moments_every_family",
    "Verif.Props.lmoments_families_partial",
    "Verif.Props.lmoments_discrete_weibull",
    "Verif.Props.moments_modified",
    "Verif.Props.lmoments_modified",
    "Verif.Props.lmoments_d_refused"
   ],
   "note": "The last sentence is false: DiscreteWeibull, Categorical and the modified distributions have no L-moments, hurdle distributions no skewness and kurtosis (so moments() without arguments raises on them), and lmoments refuses the documented d (negations proved)."
  },
  {
   "property": "C129",
   "status": "proved",
   "theorems": [
    "Verif.Props.pareto_best",
    "Verif.Props.pareto_below_one",
    "Verif.Props.pareto_leaves_out",
    "Verif.Props.pareto_from_zero",
    "Verif.Props.maxent_pareto"
   ],
   "note": "cdf and entropy are taken to be those of the documented density; the runs of SLSQP are arbitrary (completed ones end at proper parameters)."
  },
  {
   "property": "C130",
   "status": "proved",
   "theorems": [
    "Verif.Props.location_outside",
    "Verif.Props.location_at_end",
    "Verif.Props.location_peak_scale",
    "Verif.Props.location_candidate",
    "Verif.Props.scale_candidate",
    "Verif.Props.maxent_location_given",
    "Verif.Props.maxent_location_outside",
    "Verif.Props.maxent_scale_given",
    "Verif.Props.scale_order_decides"
   ],
   "note": "Densities and entropies by their documented formulas; the optimiser is any list of runs."
  },
  {
   "property": "C131",
   "status": "proved",
   "theorems": [
    "Verif.Props.log_every",
    "Verif.Props.log_best",
    "Verif.Props.log_units",
    "Verif.Props.log_from_zero",
    "Verif.Props.loglogistic_from_zero",
    "Verif.Props.log_from_zero_none",
    "Verif.Props.log_mass_below_one",
    "Verif.Props.log_params_inj",
    "Verif.Props.log_candidate",
    "Verif.Props.maxent_log"
   ],
   "note": "Densities by their documented formulas, entropies as integrals of them; the optimiser is any list of runs."
  },
  {
   "property": "C132",
   "status": "proved",
   "theorems": [
    "Verif.Props.skew_normal_documented",
    "Verif.Props.skew_normal_notes",
    "Verif.Props.skew_normal_limit",
    "Verif.Props.skew_normal_match",
    "Verif.Props.skew_normal_mode",
    "Verif.Props.skew_student_documented",
    "Verif.Props.skew_student_variance",
    "Verif.Props.skew_student_equal",
    "Verif.Props.skew_student_sigma",
    "Verif.Props.skew_student_leans",
    "Verif.Props.skew_student_mean_leans",
    "Verif.Props.skew_student_mode"
   ],
   "note": "The documented densities; that the external numerical library computes them is not modelled. The statement includes the negation of the documented remark about sigma."
  },
  {
   "property": "C133",
   "status": "proved",
   "theorems": [
    "Verif.Props.shift_entropy",
    "Verif.Props.shift_location_inside",
    "Verif.Props.shift_location_end",
    "Verif.Props.shift_location_outside",
    "Verif.Props.shift_scale_given",
    "Verif.Props.shift_location_candidate",
    "Verif.Props.shift_scale_candidate",
    "Verif.Props.maxent_shift_location",
    "Verif.Props.maxent_shift_location_best",
    "Verif.Props.maxent_shift_scale",
    "Verif.Props.asymmetric_below"
   ],
   "note": "Densities and entropies by their documented formulas; the optimiser is any list of runs."
  },
  {
   "property": "C134",
   "status": "proved",
   "theorems": [
    "Verif.Props.binomial_documented",
    "Verif.Props.negative_binomial_documented",
    "Verif.Props.beta_binomial_documented",
    "Verif.Props.hypergeometric_documented",
    "Verif.Props.discrete_weibull_documented",
    "Verif.Props.zero_inflated_documented",
    "Verif.Props.count_iff",
    "Verif.Props.count_has",
    "Verif.Props.count_attained",
    "Verif.Props.binomial_attained",
    "Verif.Props.beta_binomial_one",
    "Verif.Props.count_match",
    "Verif.Props.count_fit"
   ],
   "note": "Moments are those of the documented mass functions; the optimiser is any that finds the minimum. DiscreteWeibull has no documented closed form: the mean is the sum of the documented survival function, the variance twice the sum of (x+1) times it minus mean and mean squared."
  },
  {
   "property": "C135",
   "status": "proved",
   "theorems": [
    "Verif.Props.positive_entropy",
    "Verif.Props.stretch_units",
    "Verif.Props.stretch_from_zero",
    "Verif.Props.stretch_two",
    "Verif.Props.stretch_peak",
    "Verif.Props.log_median_inside",
    "Verif.Props.log_median_end",
    "Verif.Props.log_median_outside",
    "Verif.Props.log_median_zero",
    "Verif.Props.pareto_alpha_given",
    "Verif.Props.pareto_m_given",
    "Verif.Props.positive_candidate",
    "Verif.Props.maxent_positive_given",
    "Verif.Props.maxent_positive_best"
   ],
   "note": "Masses and entropies are those of the documented densities; the optimiser is any list of runs, completed or failed."
  },
  {
   "property": "C136",
   "status": "proved",
   "theorems": [
    "Verif.Props.starts_at",
    "Verif.Props.starts_zero",
    "Verif.Props.run_forgets",
    "Verif.Props.maxent_runs",
    "Verif.Props.maxent_check_raises",
    "Verif.Props.maxent_no_start",
    "Verif.Props.maxent_one_of_five",
    "Verif.Props.maxent_first_fails",
    "Verif.Props.maxent_all_zero",
    "Verif.Props.maxent_run_best",
    "Verif.Props.figures_are_built"
   ],
   "note": "Entropy and mass of a distribution are functions of the attributes its distribution functions read (C92) and may raise. What a failing call of _parametrization has changed before it fails is not followed."
  },
  {
   "property": "C137",
   "status": "partial",
   "theorems": [
    "Verif.Props.ancestors_all",
    "Verif.Props.parents_spec",
    "Verif.Props.one_info",
    "Verif.Props.retrieve_spec",
    "Verif.Props.retrieve_unobserved",
    "Verif.Props.write_model_iff",
    "Verif.Props.samples_spec",
    "Verif.Props.initial_guess_pieces",
    "Verif.Props.ppe_text_iff",
    "Verif.Props.changed_length_fails",
    "Verif.Props.named_like_transformed",
    "Verif.Props.underscore_transform"
   ],
   "note": "False parts, proved as negations: a back-transformation that changes the number of values (simplex) makes every call fail with a ValueError; an untransformed variable named like a transformed one (my_var__) is an AttributeError; a transformation with an underscore in its name gives an entry under a name no variable has (KeyError). PyTensor's ancestors and PyMC's two functions on names are written down as documented there."
  },
  {
   "property": "C138",
   "status": "partial",
   "theorems": [
    "Verif.Props.kumaraswamy_law",
    "Verif.Props.kumaraswamy_cdf",
    "Verif.Props.loglogistic_law",
    "Verif.Props.loglogistic_mean",
    "Verif.Props.loglogistic_no_moment",
    "Verif.Props.loglogistic_doc_negative",
    "Verif.Props.loglogistic_unique",
    "Verif.Props.loglogistic_fit",
    "Verif.Props.logitnormal_law",
    "Verif.Props.logitnormal_median",
    "Verif.Props.logitnormal_fit_partial",
    "Verif.Props.logitnormal_fit_misses",
    "Verif.Props.vonmises_law",
    "Verif.Props.vonmises_line_mean",
    "Verif.Props.vonmises_mean_pi",
    "Verif.Props.vonmises_fit"
   ],
   "note": "Laws proved in full. False in three places: the documented mean of LogLogistic carries no restriction on beta (none exists for beta at most 1, and the formula is negative at 2/3); the moment fit of LogitNormal makes the requested mean the median, the mean is right only for 1/2, otherwise strictly between 1/2 and the request, and the standard deviation is only bounded by 1.5 times the request (logitnormal_fit_partial, logitnormal_fit_misses); the mean on the line of a VonMises is mu only for mu = 0."
  },
  {
   "property": "C139",
   "status": "partial",
   "theorems": [
    "Verif.Props.ml_unique",
    "Verif.Props.ml_constant",
    "Verif.Props.ml_iff",
    "Verif.Props.wald_ml_closed",
    "Verif.Props.pareto_ml_closed",
    "Verif.Props.cauchy_ml_unique",
    "Verif.Props.cauchy_ml_unbounded",
    "Verif.Props.cauchy_ml_two",
    "Verif.Props.halfCauchy_ml",
    "Verif.Props.chiSquared_ml_unique",
    "Verif.Props.student_ml_unbounded",
    "Verif.Props.student_ml_none",
    "Verif.Props.halfStudent_ml_unbounded",
    "Verif.Props.ml_run",
    "Verif.Props.cauchy_ml_run",
    "Verif.Props.one_ml_run"
   ],
   "note": "Proved for the thirteen families (Wald and Pareto also in closed form). False for StudentT: with the degrees of freedom free every sample can be made as likely as one likes (student_ml_none), and for HalfStudentT as soon as the sample contains a zero; for two values all Cauchy distributions on a half circle are equally likely (cauchy_ml_two). ml_run covers parameters at least the machine epsilon away from the end of the domain, not Pareto, and a Beta only if it is not given by its mean (C66). The optimiser and the log-density are parameters."
  },
  {
   "property": "C140",
   "status": "proved",
   "theorems": [
    "Verif.Props.negBinomial_ml_iff",
    "Verif.Props.negBinomial_ml_mean",
    "Verif.Props.negBinomial_ml_alpha",
    "Verif.Props.negBinomial_larger",
    "Verif.Props.ziPoisson_ml_iff",
    "Verif.Props.asymLaplace_ml_iff",
    "Verif.Props.asymLaplace_ml_two",
    "Verif.Props.betaScaled_ml_unbounded",
    "Verif.Props.betaScaled_ml_none",
    "Verif.Props.discreteWeibull_ml_none",
    "Verif.Props.negBinomial_ml_run",
    "Verif.Props.negBinomial_ml_fails",
    "Verif.Props.ziPoisson_ml_run",
    "Verif.Props.asymLaplace_ml_run"
   ],
   "note": "The runs cover parameters at least the machine epsilon away from the end of the domain (for NegativeBinomial this follows from the size of the sample, negBinomial_ml_alpha) and an AsymmetricLaplace given by kappa. That there is only one most likely NegativeBinomial and when a DiscreteWeibull exists is C141. The optimiser and the log-density are parameters."
  },
  {
   "property": "C141",
   "status": "proved",
   "theorems": [
    "Verif.Props.negBinomial_ml_unique",
    "Verif.Props.discreteWeibull_ml_iff",
    "Verif.Props.kumaraswamy_ml_unique",
    "Verif.Props.kumaraswamy_ml_b",
    "Verif.Props.kumaraswamy_ml_constant",
    "Verif.Props.kumaraswamy_ml_iff",
    "Verif.Props.negBinomial_ml_run_unique",
    "Verif.Props.kumaraswamy_ml_run",
    "Verif.Props.kumaraswamy_ml_fails",
    "Verif.Props.discreteWeibull_ml_run"
   ],
   "note": "The runs cover parameters at least the machine epsilon away from the end of the domain. Whether there is only one most likely DiscreteWeibull is not proved. The optimiser and the log-density are parameters."
  },
  {
   "property": "C142",
   "status": "proved",
   "theorems": [
    "Verif.Props.truncNormal_ml_bounds",
    "Verif.Props.tilted_mean_unique",
    "Verif.Props.truncNormal_ml_iff",
    "Verif.Props.truncNormal_ml_unique",
    "Verif.Props.truncNormal_ml_better",
    "Verif.Props.truncNormal_ml_limited",
    "Verif.Props.truncNormal_ml_two",
    "Verif.Props.truncNormal_ml_constant",
    "Verif.Props.skewNormal_ml_inside",
    "Verif.Props.skewNormal_ml_better",
    "Verif.Props.skewNormal_ml_two",
    "Verif.Props.skewNormal_ml_constant",
    "Verif.Props.skewStudent_ml_unbounded",
    "Verif.Props.truncNormal_ml_run",
    "Verif.Props.truncNormal_ml_fails",
    "Verif.Props.skewNormal_ml_fails"
   ],
   "note": "The runs cover a sigma of at least the machine epsilon. The optimiser and the log-density are parameters; nothing is assumed about the log-density of a TruncatedNormal outside its bounds, where the code has -inf. For which samples of three or more values a most likely SkewNormal exists is not proved."
  },
  {
   "property": "C143",
   "status": "proved",
   "theorems": [
    "Verif.Props.rice_ml_exists",
    "Verif.Props.rice_ml_second",
    "Verif.Props.rice_ml_positive",
    "Verif.Props.rice_ml_constant",
    "Verif.Props.rice_ml_run"
   ],
   "note": "The run covers parameters at least the machine epsilon away from the end of the domain. Whether the most likely Rice is unique is not proved; the condition on the fourth power is sufficient, not necessary. The optimiser and the log-density are parameters."
  },
  {
   "property": "C144",
   "status": "proved",
   "theorems": [
    "Verif.Props.rvs_count",
    "Verif.Props.rvs_size_respected",
    "Verif.Props.rvs_size_error",
    "Verif.Props.rvs_no_size",
    "Verif.Props.rvs_no_size_array",
    "Verif.Props.rvs_default_is_none"
   ],
   "note": "Assumes that the library's generators return the requested shape. That the default of Rice and the flattening by Mixture deviate from the other distributions is part of the statement and recorded in DESIGN.md. A Mixture that is already complete cannot be wrapped (C145); the censored ones here were completed afterwards."
  },
  {
   "property": "C145",
   "status": "partial",
   "theorems": [
    "Verif.Props.nested_kept_partial",
    "Verif.Props.nested_incomplete",
    "Verif.Props.nested_refused",
    "Verif.Props.nested_leaf_lost",
    "Verif.Props.nested_inner_lost",
    "Verif.Props.nested_misread"
   ],
   "note": "Where it holds: no name in common inside the outermost modifier, any depth. Proved false otherwise (nested_leaf_lost, nested_inner_lost, nested_misread, nested_refused). The innermost distribution is parametrised by the names it has; the cut of the bounds of Censored to the support is left out."
  },
  {
   "property": "C146",
   "status": "partial",
   "theorems": [
    "Verif.Props.nest_truncations",
    "Verif.Props.nest_truncation_order",
    "Verif.Props.nest_truncated_twice",
    "Verif.Props.nest_pair_functions",
    "Verif.Props.nest_truncated_thrice",
    "Verif.Props.nest_censorings",
    "Verif.Props.nest_cens_trunc",
    "Verif.Props.nest_trunc_cens",
    "Verif.Props.nest_trunc_cens_factor",
    "Verif.Props.nest_trunc_cens_sum",
    "Verif.Props.nest_trunc_cens_lower"
   ],
   "note": "Truncations of truncations (with the bounds the objects hold, any depth), censorings of censorings and of truncations are as stated. False, with proofs: of three truncations written in one expression the innermost is ignored (nest_truncated_thrice, from C145); a Truncated that shares the upper bound of a Censored it wraps has a density too large by 1 / P(X <= u), so that probabilities add up to more than one (nest_trunc_cens_factor, nest_trunc_cens_sum); the same for a shared lower bound of a continuous distribution (nest_trunc_cens_lower). nest_trunc_cens is the part that holds."
  },
  {
   "property": "C147",
   "status": "partial",
   "theorems": [
    "Verif.Props.nest_hurdle_pdf",
    "Verif.Props.nest_mix_pdf",
    "Verif.Props.nest_hurdle_twice",
    "Verif.Props.nest_trunc_hurdle",
    "Verif.Props.nest_trunc_hurdle_zero",
    "Verif.Props.nest_trunc_hurdle_sum",
    "Verif.Props.nest_hurdle_trunc",
    "Verif.Props.nest_mix_mix",
    "Verif.Props.nest_mix_trunc",
    "Verif.Props.nest_mix_support",
    "Verif.Props.nest_mix_mix_support"
   ],
   "note": "Truncated around a Hurdle is right for positive lower bounds (nest_trunc_hurdle: it is the truncation of the distribution inside). False otherwise, with proofs: with a lower bound at or below zero, or none, the mass at zero is taken to lie outside because the cdf of a Hurdle does not vanish below zero (C18), the density is divided by P(0 < X <= u) and the probabilities add up to 1 / psi (nest_trunc_hurdle_zero, nest_trunc_hurdle_sum). Hurdle around Truncated: discrete distributions and points that are not negative. The ppf of a Mixture is computed by a search and left out here."
  },
  {
   "property": "C148",
   "status": "partial",
   "theorems": [
    "Verif.Props.nest_sample_truncations",
    "Verif.Props.nest_sample_cens_trunc",
    "Verif.Props.nest_sample_trunc_cens",
    "Verif.Props.nest_sample_trunc_hurdle",
    "Verif.Props.nest_sample_hurdle_trunc"
   ],
   "note": "Proved for truncations to any depth and for Censored around Truncated. False for the other two: samples of Truncated(Censored(d, None, u), None, u) follow the truncated distribution (no mass at u) and samples of Truncated(Hurdle(d, psi), l <= 0) follow d conditioned on being positive (no zeros); both exact laws are proved, so what is missing is false in the code."
  },
  {
   "property": "C149",
   "status": "proved",
   "theorems": [
    "Verif.Props.nest_trunc_mix",
    "Verif.Props.nest_trunc_mix_parts",
    "Verif.Props.nest_cens_mix_parts",
    "Verif.Props.nest_hurdle_mix_parts"
   ],
   "note": "The components may be any objects, modified or not. The ppf of a Mixture is a search; that it returns quantiles is a hypothesis of the ppf part only (see the property on the ppf of mixtures). The cdf of a Hurdle does not vanish below zero (C18); the equality with the Mixture holds there too."
  },
  {
   "property": "C150",
   "status": "proved",
   "theorems": [
    "Verif.Props.circ_entropy",
    "Verif.Props.circ_mass_mode",
    "Verif.Props.circ_mass_grows",
    "Verif.Props.circ_best_high",
    "Verif.Props.circ_best_low",
    "Verif.Props.circ_best_none",
    "Verif.Props.maxent_vonmises"
   ],
   "note": "The law is the von Mises density on (-pi, pi] (C138 has its moments). The optimiser's runs are arbitrary; that one of them ends at a distribution of largest entropy is a hypothesis of the last theorem, and its box (kappa at least machine epsilon) is not modelled there."
  },
  {
   "property": "C151",
   "status": "proved",
   "theorems": [
    "Verif.Props.circ_mode_given",
    "Verif.Props.circ_mode_given_attain",
    "Verif.Props.circ_kappa_given",
    "Verif.Props.maxent_vonmises_mode_given",
    "Verif.Props.maxent_vonmises_kappa_given"
   ],
   "note": "mu strictly between -pi and pi in the statement on attainable masses outside the interval. The mass is not monotone in kappa in general, so that several kappas may have it; the optimiser's runs are arbitrary."
  },
  {
   "property": "C152",
   "status": "proved",
   "theorems": [
    "Verif.Props.geometric_below",
    "Verif.Props.geometric_quartiles",
    "Verif.Props.geometric_misses",
    "Verif.Props.bernoulli_misses",
    "Verif.Props.discrete_uniform_quartiles",
    "Verif.Props.discrete_weibull_below",
    "Verif.Props.discrete_weibull_quartiles",
    "Verif.Props.quartile_geometric",
    "Verif.Props.quartile_discrete_uniform"
   ],
   "note": "The base cdf is assumed to be that of the documented probabilities and the optimiser to find the minimum. For DiscreteUniform a search that ends at bounds in the wrong order is excluded: nothing is documented there."
  },
  {
   "property": "C153",
   "status": "proved",
   "theorems": [
    "Verif.Props.halfStudent_below",
    "Verif.Props.halfStudent_limit",
    "Verif.Props.halfStudent_ml_iff",
    "Verif.Props.halfStudent_ml_heavy",
    "Verif.Props.halfStudent_ml_constant",
    "Verif.Props.halfStudent_ml_zero",
    "Verif.Props.halfStudent_ml_run",
    "Verif.Props.halfStudent_ml_stuck"
   ],
   "note": "The base logpdf is assumed to be the logarithm of the documented density and the optimiser to find the minimum within the bounds. The condition on the fourth powers is sufficient, not necessary."
  },
  {
   "property": "C154",
   "status": "proved",
   "theorems": [
    "Verif.Props.vonmises_interval_arc",
    "Verif.Props.vonmises_eti_arc",
    "Verif.Props.vonmises_hdi_is_eti",
    "Verif.Props.vonmises_order",
    "Verif.Props.vonmises_between",
    "Verif.Props.vonmises_drawn"
   ],
   "note": "For fmt='none'; rounding is in C56. The base functions at mu = 0 are assumed to be those of the documented density on its support, and the optimiser to find the minimum."
  },
  {
   "property": "C155",
   "status": "proved",
   "theorems": [
    "Verif.Props.hdi_is_eti_symmetric",
    "Verif.Props.hdi_from_lower_end",
    "Verif.Props.peak_intervals",
    "Verif.Props.half_intervals",
    "Verif.Props.pareto_intervals",
    "Verif.Props.uniform_hdi_any",
    "Verif.Props.uniform_solved",
    "Verif.Props.peak_base_exists",
    "Verif.Props.half_base_exists",
    "Verif.Props.pareto_base_exists",
    "Verif.Props.peak_interval_scale",
    "Verif.Props.half_interval_scale",
    "Verif.Props.exponential_interval"
   ],
   "note": "For fmt='none'; rounding is in C56. The base functions are assumed to be those of the documented density, and the optimiser to find the minimum (for Uniform, one of the minima)."
  },
  {
   "property": "C156",
   "status": "proved",
   "theorems": [
    "Verif.Props.hdi_nested",
    "Verif.Props.hdi_unique",
    "Verif.Props.hdi_not_unique",
    "Verif.Props.hdi_not_nested",
    "Verif.Props.peak_nested",
    "Verif.Props.half_nested",
    "Verif.Props.no_flat_of_strict",
    "Verif.Props.gamma_nested",
    "Verif.Props.inverseGamma_nested",
    "Verif.Props.gamma_base_exists"
   ],
   "note": "For fmt='none'. The density is assumed continuous inside the support and the optimiser to find the minimum."
  }
 ]
}