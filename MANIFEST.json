{
 "claims": [
  {
   "property": "C01",
   "status": "proved",
   "theorems": [
    "JaxCosmo.C01_a2z_z2a",
    "JaxCosmo.C01_z2a_a2z",
    "JaxCosmo.C01_range",
    "JaxCosmo.C01_onto",
    "JaxCosmo.C01_strictAnti"
   ],
   "note": "Over any linearly ordered field."
  },
  {
   "property": "C02",
   "status": "proved",
   "theorems": [
    "JaxCosmo.C02_Esqr_one",
    "JaxCosmo.C02_H_one"
   ],
   "note": ""
  },
  {
   "property": "C03",
   "status": "proved",
   "theorems": [
    "JaxCosmo.C03_fractions_sum",
    "JaxCosmo.C03_fractions_range"
   ],
   "note": ""
  },
  {
   "property": "C04",
   "status": "proved",
   "theorems": [
    "JaxCosmo.C04_f_de_integral",
    "JaxCosmo.C04_f_de_one",
    "JaxCosmo.C04_lambda_const",
    "JaxCosmo.C04_density_rate"
   ],
   "note": ""
  },
  {
   "property": "C05",
   "status": "proved",
   "theorems": [
    "JaxCosmo.C05_Esqr_pos",
    "JaxCosmo.C05_H_pos",
    "JaxCosmo.C05_Esqr_antitone",
    "JaxCosmo.C05_H_antitone"
   ],
   "note": ""
  },
  {
   "property": "C06",
   "status": "proved",
   "theorems": [
    "JaxCosmo.C06_call",
    "JaxCosmo.C06_nonneg",
    "JaxCosmo.C06_zero_today",
    "JaxCosmo.C06_antitone",
    "JaxCosmo.C06_zero_after",
    "JaxCosmo.C06_pos_before",
    "JaxCosmo.C06_strictAnti"
   ],
   "note": ""
  },
  {
   "property": "C07",
   "status": "partial",
   "theorems": [
    "JaxCosmo.C07_partial",
    "JaxCosmo.C07_accuracy",
    "JaxCosmo.C07_milne_partial",
    "JaxCosmo.C07_first_node",
    "JaxCosmo.C07_refuted"
   ],
   "note": "Refuted at the first table node (C07_refuted, witness Milne universe): interp uses the wrong chord below the second node. Proved at every other node, plus an error bound against the true integral."
  },
  {
   "property": "C08",
   "status": "partial",
   "theorems": [
    "JaxCosmo.C08_partial",
    "JaxCosmo.C08_nodes_partial",
    "JaxCosmo.C08_refuted"
   ],
   "note": "Refuted (C08_refuted): a_of_chi reads a decreasing table, on which interp may select the wrong segment. Proved where the segment lookup is right, including nodes."
  },
  {
   "property": "C09",
   "status": "proved",
   "theorems": [
    "JaxCosmo.C09_call",
    "JaxCosmo.C09_flat",
    "JaxCosmo.C09_open",
    "JaxCosmo.C09_closed",
    "JaxCosmo.C09_limit",
    "JaxCosmo.C09_angular"
   ],
   "note": ""
  },
  {
   "property": "C10",
   "status": "proved",
   "theorems": [
    "JaxCosmo.C10_call",
    "JaxCosmo.C10_range",
    "JaxCosmo.C10_one_gamma",
    "JaxCosmo.C10_one_ode_guard",
    "JaxCosmo.C10_one",
    "JaxCosmo.C10_mono_ode",
    "JaxCosmo.C10_pos_ode",
    "JaxCosmo.C10_strict_ode"
   ],
   "note": "growth_factor(1)=1 in the ODE branch uses a positivity hypothesis that is proved for every physical cosmology."
  },
  {
   "property": "C11",
   "status": "proved",
   "theorems": [
    "JaxCosmo.C11_eds_growth",
    "JaxCosmo.C11_eds_rate",
    "JaxCosmo.C11_gamma_zero"
   ],
   "note": ""
  },
  {
   "property": "C12",
   "status": "proved",
   "theorems": [
    "JaxCosmo.C12_call",
    "JaxCosmo.C12_range",
    "JaxCosmo.C12_mono"
   ],
   "note": ""
  },
  {
   "property": "C13",
   "status": "proved",
   "theorems": [
    "JaxCosmo.C13_transparent",
    "JaxCosmo.C13_params",
    "JaxCosmo.C13_total",
    "JaxCosmo.C13_no_keyError",
    "JaxCosmo.C13_values",
    "JaxCosmo.C13_history_free"
   ],
   "note": ""
  },
  {
   "property": "C14",
   "status": "partial",
   "theorems": [
    "JaxCosmo.C14_first_call_partial",
    "JaxCosmo.C14_same_settings_partial",
    "JaxCosmo.C14_settings_ignored",
    "JaxCosmo.C14_refuted"
   ],
   "note": "Refuted (C14_refuted, C14_settings_ignored): once a table is cached, later resolution settings are ignored. Proved for a first call and for repeated settings."
  },
  {
   "property": "C15",
   "status": "partial",
   "theorems": [
    "JaxCosmo.C15_distances_partial",
    "JaxCosmo.C15_growth_rate_gamma_partial",
    "JaxCosmo.C15_growth_factor_scalar",
    "JaxCosmo.C15_growth_rate_scalar",
    "JaxCosmo.C15_refuted"
   ],
   "note": "Refuted (C15_refuted, C15_growth_factor_scalar, C15_growth_rate_scalar): growth_factor in both modes and growth_rate in ODE mode raise ValueError on a scalar because interp is vmapped over it. Proved for the distances and for growth_rate with gamma."
  },
  {
   "property": "C16",
   "status": "partial",
   "theorems": [
    "JaxCosmo.C16_short",
    "JaxCosmo.C16_partial",
    "JaxCosmo.C16_gamma_fails",
    "JaxCosmo.C16_refuted",
    "JaxCosmo.C16_kernels_fail",
    "JaxCosmo.C16_jit_partial"
   ],
   "note": "Refuted (C16_refuted, C16_gamma_fails): gamma given to the constructor makes tree_unflatten fail. Proved for cosmologies without gamma."
  },
  {
   "property": "C17",
   "status": "proved",
   "theorems": [
    "JaxCosmo.C17_roundtrip",
    "JaxCosmo.C17_repeat",
    "JaxCosmo.C17_fields",
    "JaxCosmo.C17_redshift",
    "JaxCosmo.C17_bias",
    "JaxCosmo.C17_numberCounts"
   ],
   "note": ""
  },
  {
   "property": "C18",
   "status": "partial",
   "theorems": [
    "JaxCosmo.C18_partial",
    "JaxCosmo.C18_m_lost",
    "JaxCosmo.C18_period_two",
    "JaxCosmo.C18_ia_fails",
    "JaxCosmo.C18_refuted"
   ],
   "note": "Refuted (C18_refuted, C18_m_lost, C18_ia_fails): WeakLensing loses its multiplicative bias or fails on rebuild. Proved for the configurations that survive."
  },
  {
   "property": "C19",
   "status": "partial",
   "theorems": [
    "JaxCosmo.C19_partial",
    "JaxCosmo.C19_nodes_partial",
    "JaxCosmo.C19_first_segment",
    "JaxCosmo.C19_fp0_ignored",
    "JaxCosmo.C19_first_segment_iff",
    "JaxCosmo.C19_refuted"
   ],
   "note": "Refuted on the first segment (C19_refuted, C19_first_segment gives the exact wrong value); proved on all other segments."
  },
  {
   "property": "C20",
   "status": "partial",
   "theorems": [
    "JaxCosmo.C20_partial",
    "JaxCosmo.C20_nodes",
    "JaxCosmo.C20_wrong_segment",
    "JaxCosmo.C20_refuted"
   ],
   "note": "Refuted on decreasing tables (C20_refuted); proved at nodes and whenever the nearest node is the upper end of the segment."
  },
  {
   "property": "C21",
   "status": "proved",
   "theorems": [
    "JaxCosmo.C21_affine",
    "JaxCosmo.C21_mono",
    "JaxCosmo.C21_anti",
    "JaxCosmo.C21_linear",
    "JaxCosmo.C21_strictMono",
    "JaxCosmo.C21_strictAnti"
   ],
   "note": ""
  },
  {
   "property": "C22",
   "status": "proved",
   "theorems": [
    "JaxCosmo.C22_odd_rejected",
    "JaxCosmo.C22_linear",
    "JaxCosmo.C22_exact_cubic",
    "JaxCosmo.C22_mono",
    "JaxCosmo.C22_nonneg",
    "JaxCosmo.C22_swap",
    "JaxCosmo.C22_exact_cubic_integral"
   ],
   "note": ""
  },
  {
   "property": "C23",
   "status": "proved",
   "theorems": [
    "JaxCosmo.C23_error_bound",
    "JaxCosmo.C23_converges"
   ],
   "note": ""
  },
  {
   "property": "C24",
   "status": "proved",
   "theorems": [
    "JaxCosmo.C24_state",
    "JaxCosmo.C24_tableau",
    "JaxCosmo.C24_linear",
    "JaxCosmo.C24_exact",
    "JaxCosmo.C24_exact_integral",
    "JaxCosmo.C24_nonneg",
    "JaxCosmo.C24_mono"
   ],
   "note": "Tableau specified independently in Spec.Romberg; exactness for polynomials of degree <= 2m+1."
  },
  {
   "property": "C25",
   "status": "partial",
   "theorems": [
    "JaxCosmo.C25_partial",
    "JaxCosmo.C25_refuted"
   ],
   "note": "Refuted at divmax = 0 (the loop body never binds the result: UnboundLocalError); proved for every divmax >= 1."
  },
  {
   "property": "C26",
   "status": "proved",
   "theorems": [
    "JaxCosmo.C26_first",
    "JaxCosmo.C26_step",
    "JaxCosmo.C26_prefix",
    "JaxCosmo.C26_restart",
    "JaxCosmo.C26_simpson",
    "JaxCosmo.C26_cubic_exact",
    "JaxCosmo.C26_linear"
   ],
   "note": ""
  },
  {
   "property": "C27",
   "status": "proved",
   "theorems": [
    "JaxCosmo.C27_interpolates"
   ],
   "note": ""
  },
  {
   "property": "C28",
   "status": "proved",
   "theorems": [
    "JaxCosmo.C28_total",
    "JaxCosmo.C28_quadratic_solvable",
    "JaxCosmo.C28_cubic_solvable",
    "JaxCosmo.C28_smooth"
   ],
   "note": ""
  },
  {
   "property": "C29",
   "status": "proved",
   "theorems": [
    "JaxCosmo.C29_cubic_exact",
    "JaxCosmo.C29_quadratic_exact",
    "JaxCosmo.C29_single_cubic",
    "JaxCosmo.C29_third_derivative"
   ],
   "note": ""
  },
  {
   "property": "C30",
   "status": "partial",
   "theorems": [
    "JaxCosmo.C30_left_partial",
    "JaxCosmo.C30_right_condition",
    "JaxCosmo.C30_affine_exact",
    "JaxCosmo.C30_refuted"
   ],
   "note": "Refuted at the right end (C30_refuted: second derivative 24/19). Left end proved; the condition the code imposes on the right (third derivative zero on the last piece) is proved instead."
  },
  {
   "property": "C31",
   "status": "proved",
   "theorems": [
    "JaxCosmo.C31_rejected",
    "JaxCosmo.C31_derivative"
   ],
   "note": "Order n = k away from the breakpoints between pieces."
  },
  {
   "property": "C32",
   "status": "proved",
   "theorems": [
    "JaxCosmo.C32_antiderivative",
    "JaxCosmo.C32_integral",
    "JaxCosmo.C32_antisymm",
    "JaxCosmo.C32_additive"
   ],
   "note": ""
  },
  {
   "property": "C33",
   "status": "proved",
   "theorems": [
    "JaxCosmo.C33_roundtrip",
    "JaxCosmo.C33_built"
   ],
   "note": ""
  },
  {
   "property": "C34",
   "status": "proved",
   "theorems": [
    "JaxCosmo.C34_toDense",
    "JaxCosmo.C34_entry",
    "JaxCosmo.C34_injective",
    "JaxCosmo.C34_linear",
    "JaxCosmo.C34_api"
   ],
   "note": ""
  },
  {
   "property": "C35",
   "status": "proved",
   "theorems": [
    "JaxCosmo.C35_sparse_vec",
    "JaxCosmo.C35_sparse_dense",
    "JaxCosmo.C35_vec_sparse",
    "JaxCosmo.C35_dense_sparse",
    "JaxCosmo.C35_sparse_sparse",
    "JaxCosmo.C35_bilinear"
   ],
   "note": ""
  },
  {
   "property": "C36",
   "status": "partial",
   "theorems": [
    "JaxCosmo.C36_rejects",
    "JaxCosmo.C36_count",
    "JaxCosmo.C36_triple_rejects",
    "JaxCosmo.C36_returns_partial",
    "JaxCosmo.C36_triple_returns",
    "JaxCosmo.C36_mismatch_wrong",
    "JaxCosmo.C36_refuted"
   ],
   "note": "Refuted for sparse x sparse with equal total size but different block sizes (C36_refuted; C36_mismatch_wrong: never right). Rejection of incompatible shapes proved in full; results proved correct whenever block sizes agree."
  },
  {
   "property": "C37",
   "status": "proved",
   "theorems": [
    "JaxCosmo.C37_inverse",
    "JaxCosmo.C37_involution",
    "JaxCosmo.C37_rejects"
   ],
   "note": ""
  },
  {
   "property": "C38",
   "status": "partial",
   "theorems": [
    "JaxCosmo.C38_slogdet_partial",
    "JaxCosmo.C38_det_partial",
    "JaxCosmo.C38_posDef",
    "JaxCosmo.C38_rejects",
    "JaxCosmo.C38_refuted"
   ],
   "note": "Refuted when a trailing block matrix is singular (C38_refuted). Proved when all trailing block matrices are invertible, hence for every positive definite matrix (C38_posDef)."
  },
  {
   "property": "C39",
   "status": "proved",
   "theorems": [
    "JaxCosmo.C39_sigma8",
    "JaxCosmo.C39_normalisable",
    "JaxCosmo.C39_rescale"
   ],
   "note": ""
  },
  {
   "property": "C40",
   "status": "proved",
   "theorems": [
    "JaxCosmo.C40_growth",
    "JaxCosmo.C40_sigma8",
    "JaxCosmo.C40_nonneg",
    "JaxCosmo.C40_pos",
    "JaxCosmo.C40_le_today"
   ],
   "note": ""
  },
  {
   "property": "C41",
   "status": "partial",
   "theorems": [
    "JaxCosmo.C41_integrand_partial",
    "JaxCosmo.C41_range",
    "JaxCosmo.C41_refuted"
   ],
   "note": "The integrand is right but the bounds passed to the quadrature in ln k are log10(kmin), log10(kmax): proved C41_range and refuted with a continuous transfer function for which sigmasqr is 0 though the integral is positive."
  },
  {
   "property": "C42",
   "status": "proved",
   "theorems": [
    "JaxCosmo.C42_k_nl",
    "JaxCosmo.C42_takahashi_pos",
    "JaxCosmo.C42_smith_pos",
    "JaxCosmo.C42_unknown",
    "JaxCosmo.C42_linear",
    "JaxCosmo.C42_default"
   ],
   "note": ""
  },
  {
   "property": "C43",
   "status": "proved",
   "theorems": [
    "JaxCosmo.C43_range",
    "JaxCosmo.C43_shape",
    "JaxCosmo.C43_zero",
    "JaxCosmo.C43_decreasing",
    "JaxCosmo.C43_unknown"
   ],
   "note": ""
  },
  {
   "property": "C44",
   "status": "proved",
   "theorems": [
    "JaxCosmo.C44_large_scales"
   ],
   "note": ""
  },
  {
   "property": "C45",
   "status": "proved",
   "theorems": [
    "JaxCosmo.C45_history",
    "JaxCosmo.C45_normalised",
    "JaxCosmo.C45_rescale",
    "JaxCosmo.C45_delta",
    "JaxCosmo.C45_smail",
    "JaxCosmo.C45_kde"
   ],
   "note": "delta_nz has its norm fixed to 1 (C45_delta). Norms of smail_nz and kde_nz proved positive."
  },
  {
   "property": "C46",
   "status": "proved",
   "theorems": [
    "JaxCosmo.C46_nonneg",
    "JaxCosmo.C46_integral",
    "JaxCosmo.C46_weights",
    "JaxCosmo.C46_perm",
    "JaxCosmo.C46_merge"
   ],
   "note": ""
  },
  {
   "property": "C47",
   "status": "proved",
   "theorems": [
    "JaxCosmo.C47_shift",
    "JaxCosmo.C47_below",
    "JaxCosmo.C47_zero",
    "JaxCosmo.C47_compose",
    "JaxCosmo.C47_compose_eval"
   ],
   "note": ""
  },
  {
   "property": "C48",
   "status": "proved",
   "theorems": [
    "JaxCosmo.C48_order",
    "JaxCosmo.C48_perm",
    "JaxCosmo.C48_rejects"
   ],
   "note": ""
  },
  {
   "property": "C49",
   "status": "proved",
   "theorems": [
    "JaxCosmo.C49_nonneg",
    "JaxCosmo.C49_beyond",
    "JaxCosmo.C49_plane",
    "JaxCosmo.C49_observer",
    "JaxCosmo.C49_front"
   ],
   "note": ""
  },
  {
   "property": "C50",
   "status": "proved",
   "theorems": [
    "JaxCosmo.C50_range",
    "JaxCosmo.C50_one",
    "JaxCosmo.C50_strictMono",
    "JaxCosmo.C50_tendsto"
   ],
   "note": ""
  },
  {
   "property": "C51",
   "status": "proved",
   "theorems": [
    "JaxCosmo.C51_list_bias",
    "JaxCosmo.C51_per_bin",
    "JaxCosmo.C51_length",
    "JaxCosmo.C51_linear",
    "JaxCosmo.C51_m_scalar",
    "JaxCosmo.C51_m_list",
    "JaxCosmo.C51_m_equal",
    "JaxCosmo.C51_ia_additive",
    "JaxCosmo.C51_ia_zero"
   ],
   "note": ""
  },
  {
   "property": "C52",
   "status": "proved",
   "theorems": [
    "JaxCosmo.C52_density",
    "JaxCosmo.C52_nla",
    "JaxCosmo.C52_only"
   ],
   "note": ""
  },
  {
   "property": "C53",
   "status": "proved",
   "theorems": [
    "JaxCosmo.C53_constant",
    "JaxCosmo.C53_invGrowth_today",
    "JaxCosmo.C53_invGrowth_ge",
    "JaxCosmo.C53_invGrowth_mono",
    "JaxCosmo.C53_invGrowth_physical",
    "JaxCosmo.C53_desY1_pivot",
    "JaxCosmo.C53_desY1_power"
   ],
   "note": ""
  },
  {
   "property": "C54",
   "status": "proved",
   "theorems": [
    "JaxCosmo.C54_count",
    "JaxCosmo.C54_enumerates"
   ],
   "note": ""
  },
  {
   "property": "C55",
   "status": "proved",
   "theorems": [
    "JaxCosmo.C55_missing",
    "JaxCosmo.C55_blocks"
   ],
   "note": ""
  },
  {
   "property": "C56",
   "status": "proved",
   "theorems": [
    "JaxCosmo.C56_limber",
    "JaxCosmo.C56_psd",
    "JaxCosmo.C56_cauchy_schwarz"
   ],
   "note": ""
  },
  {
   "property": "C57",
   "status": "proved",
   "theorems": [
    "JaxCosmo.C57_independent",
    "JaxCosmo.C57_sublist",
    "JaxCosmo.C57_perm"
   ],
   "note": "For probes whose per-bin lists match their bins (Consistent); without that C69 fails and tracers are renumbered."
  },
  {
   "property": "C58",
   "status": "proved",
   "theorems": [
    "JaxCosmo.C58_auto_only",
    "JaxCosmo.C58_lensing",
    "JaxCosmo.C58_lensing_list",
    "JaxCosmo.C58_clustering",
    "JaxCosmo.C58_pos"
   ],
   "note": "C58_auto_only assumes Consistent probes (see C69). Positivity assumes galaxies in every bin and non-zero shape noise."
  },
  {
   "property": "C59",
   "status": "proved",
   "theorems": [
    "JaxCosmo.C59_wick",
    "JaxCosmo.C59_default",
    "JaxCosmo.C59_wrong_rows",
    "JaxCosmo.C59_symmetric"
   ],
   "note": ""
  },
  {
   "property": "C60",
   "status": "proved",
   "theorems": [
    "JaxCosmo.C60_posSemidef",
    "JaxCosmo.C60_posDef"
   ],
   "note": "Also instantiated for spectra computed by the library in C66."
  },
  {
   "property": "C61",
   "status": "proved",
   "theorems": [
    "JaxCosmo.C61_representation",
    "JaxCosmo.C61_mean_order"
   ],
   "note": ""
  },
  {
   "property": "C62",
   "status": "proved",
   "theorems": [
    "JaxCosmo.C62_value",
    "JaxCosmo.C62_pos",
    "JaxCosmo.C62_uniform"
   ],
   "note": ""
  },
  {
   "property": "C63",
   "status": "proved",
   "theorems": [
    "JaxCosmo.C63_representation",
    "JaxCosmo.C63_method",
    "JaxCosmo.C63_unknown_method",
    "JaxCosmo.C63_wrong_shape"
   ],
   "note": "np.linalg.inv and cho_solve are modelled by the exact inverse."
  },
  {
   "property": "C64",
   "status": "partial",
   "theorems": [
    "JaxCosmo.C64_partial",
    "JaxCosmo.C64_sparse_partial",
    "JaxCosmo.C64_refuted",
    "JaxCosmo.C64_rewards_variance"
   ],
   "note": "Refuted: the log-determinant enters with the wrong sign (C64_refuted, C64_rewards_variance). Proved: for fixed covariance the value differs from the log density by log det C + (N/2) log 2 pi."
  },
  {
   "property": "C65",
   "status": "proved",
   "theorems": [
    "JaxCosmo.C65_chiSq",
    "JaxCosmo.C65_sparse"
   ],
   "note": ""
  },
  {
   "property": "C66",
   "status": "proved",
   "theorems": [
    "JaxCosmo.C66_pipeline",
    "JaxCosmo.C66_default",
    "JaxCosmo.C66_returns"
   ],
   "note": "C66_default discharges the positivity hypothesis for the default halofit spectrum; C66_returns shows the pipeline does not raise."
  },
  {
   "property": "C67",
   "status": "proved",
   "theorems": [
    "JaxCosmo.C67_physical_units",
    "JaxCosmo.C67_independent"
   ],
   "note": ""
  },
  {
   "property": "C68",
   "status": "partial",
   "theorems": [
    "JaxCosmo.C68_explicit_partial",
    "JaxCosmo.C68_defaults",
    "JaxCosmo.C68_refuted",
    "JaxCosmo.C68_zero_shift"
   ],
   "note": "Refuted: systematic_shift falls back to gals_per_arcmin2=1, zmax=10 unless the keywords are repeated."
  },
  {
   "property": "C69",
   "status": "partial",
   "theorems": [
    "JaxCosmo.C69_kernel_partial",
    "JaxCosmo.C69_noise_partial",
    "JaxCosmo.C69_refuted"
   ],
   "note": "Refuted: a one-bin probe given a list of several biases/shape noises returns several rows. Proved when the lists of one-bin probes have one entry."
  },
  {
   "property": "C70",
   "status": "proved",
   "theorems": [
    "JaxCosmo.C70_equation",
    "JaxCosmo.C70_solutions",
    "JaxCosmo.C70_decaying",
    "JaxCosmo.C70_growing"
   ],
   "note": ""
  },
  {
   "property": "C71",
   "status": "proved",
   "theorems": [
    "JaxCosmo.C71_rate",
    "JaxCosmo.C71_redshift",
    "JaxCosmo.C71_number"
   ],
   "note": ""
  },
  {
   "property": "C72",
   "status": "proved",
   "theorems": [
    "JaxCosmo.C72_nodes",
    "JaxCosmo.C72_radial",
    "JaxCosmo.C72_default",
    "JaxCosmo.C72_matter"
   ],
   "note": ""
  },
  {
   "property": "C73",
   "status": "proved",
   "theorems": [
    "JaxCosmo.C73_units"
   ],
   "note": ""
  },
  {
   "property": "C74",
   "status": "proved",
   "theorems": [
    "JaxCosmo.C74_ratio",
    "JaxCosmo.C74_growth",
    "JaxCosmo.C74_rate"
   ],
   "note": ""
  },
  {
   "property": "C75",
   "status": "proved",
   "theorems": [
    "JaxCosmo.C75_takahashi",
    "JaxCosmo.C75_smith"
   ],
   "note": "Smith et al. constants are those in the code (nu_n uses 0.9585; not checked against the paper)."
  },
  {
   "property": "C76",
   "status": "proved",
   "theorems": [
    "JaxCosmo.C76_variance",
    "JaxCosmo.C76_index"
   ],
   "note": ""
  },
  {
   "property": "C77",
   "status": "proved",
   "theorems": [
    "JaxCosmo.C77_takahashi",
    "JaxCosmo.C77_smith",
    "JaxCosmo.C77_eisenstein_hu"
   ],
   "note": "C77_eisenstein_hu keeps 'sigma8-normalisable' as a hypothesis for the oscillating form; the Planck example discharges everything for the smooth one."
  },
  {
   "property": "C78",
   "status": "partial",
   "theorems": [
    "JaxCosmo.C78_scale_partial",
    "JaxCosmo.C78_refuted"
   ],
   "note": "Refuted in the last but one cell of the search grid (R between 9.1 and 9.6 Mpc/h), where interp extends the wrong chord on a decreasing table (C78_refuted). Proved for roots in all other cells."
  },
  {
   "property": "C79",
   "status": "proved",
   "theorems": [
    "JaxCosmo.C79_sigma8",
    "JaxCosmo.C79_sigma8_all",
    "JaxCosmo.C79_amplitude",
    "JaxCosmo.C79_galaxy_bias",
    "JaxCosmo.C79_shear_bias"
   ],
   "note": ""
  },
  {
   "property": "C80",
   "status": "partial",
   "theorems": [
    "JaxCosmo.C80_steepness",
    "JaxCosmo.C80_increasing",
    "JaxCosmo.C80_decreasing_partial",
    "JaxCosmo.C80_jump",
    "JaxCosmo.C80_distance",
    "JaxCosmo.C80_growth",
    "JaxCosmo.C80_a_of_chi",
    "JaxCosmo.C80_refuted"
   ],
   "note": "Refuted for a_of_chi, which queries a decreasing table: interp then uses the chord next to the nearest node, so it jumps at the midpoint of every inner cell where neighbouring slopes differ (C80_jump, C80_a_of_chi, C80_refuted). Proved for increasing tables, radial distance and growth, and away from midpoints."
  },
  {
   "property": "C81",
   "status": "partial",
   "theorems": [
    "JaxCosmo.C81_partial",
    "JaxCosmo.C81_jump",
    "JaxCosmo.C81_cutoff",
    "JaxCosmo.C81_refuted"
   ],
   "note": "Refuted (C81_refuted; C81_cutoff for every transfer function cut off below k = 5000 h/Mpc): R_nl jumps where the variance at a midpoint of the search grid is one. Proved continuous at all other amplitudes."
  },
  {
   "property": "C82",
   "status": "proved",
   "theorems": [
    "JaxCosmo.C82_variational"
   ],
   "note": "Derivatives are mathematical derivatives of the modelled functions; the AD of jax is not modelled."
  },
  {
   "property": "C83",
   "status": "proved",
   "theorems": [
    "JaxCosmo.C83_Esqr",
    "JaxCosmo.C83_distance",
    "JaxCosmo.C83_today"
   ],
   "note": ""
  },
  {
   "property": "C84",
   "status": "proved",
   "theorems": [
    "JaxCosmo.C84_table",
    "JaxCosmo.C84_growth",
    "JaxCosmo.C84_today",
    "JaxCosmo.C84_rate_gamma",
    "JaxCosmo.C84_growth_gamma",
    "JaxCosmo.C84_differentiable",
    "JaxCosmo.C84_rate"
   ],
   "note": ""
  },
  {
   "property": "C85",
   "status": "proved",
   "theorems": [
    "JaxCosmo.C85_smooth",
    "JaxCosmo.C85_oscillating",
    "JaxCosmo.C85_sigmasqr",
    "JaxCosmo.C85_power",
    "JaxCosmo.C85_power_smooth"
   ],
   "note": "The smooth transfer function needs gamma_eff > 0 (implied by alpha_gamma >= 0). C85_power takes a non-zero sigma8 normalisation as hypothesis; discharged in C85_power_smooth."
  },
  {
   "property": "C86",
   "status": "proved",
   "theorems": [
    "JaxCosmo.C86_kernel",
    "JaxCosmo.C86_spectra",
    "JaxCosmo.C86_oscillating",
    "JaxCosmo.C86_smooth",
    "JaxCosmo.C86_regular"
   ],
   "note": "Linear power; gamma absent because the jitted kernels raise for cosmologies with gamma. The only kinks are samples exactly 1 Mpc/h away (C86_smooth), excluded for zmax >= 2 by C86_regular."
  },
  {
   "property": "C87",
   "status": "partial",
   "theorems": [
    "JaxCosmo.C87_differentiable",
    "JaxCosmo.C87_flat",
    "JaxCosmo.C87_partial",
    "JaxCosmo.C87_flat_wrong",
    "JaxCosmo.C87_refuted",
    "JaxCosmo.C87_jvp_partial",
    "JaxCosmo.C87_jvp_flat",
    "JaxCosmo.C87_jvp_refuted"
   ],
   "note": "Refuted at flat universes (C87_refuted, C87_flat_wrong): the branch selected by lax.switch is chi, whose derivative lacks Omega_k' chi^3/(6 R_H^2) (C87_flat). Differentiability everywhere (C87_differentiable) and the switch derivative in curved universes (C87_partial) are proved. The same with the algorithm of jax.jvp itself (Model/Dual*.lean): C87_jvp_refuted, C87_jvp_flat, C87_jvp_partial."
  },
  {
   "property": "C88",
   "status": "proved",
   "theorems": [
    "JaxCosmo.C88_score",
    "JaxCosmo.C88_sparse",
    "JaxCosmo.C88_fisher",
    "JaxCosmo.C88_information",
    "JaxCosmo.C88_pipeline"
   ],
   "note": "For a covariance that does not vary with the parameters (the log-determinant sign defect C64 then only shifts the value). C88_pipeline uses linear power (C86)."
  },
  {
   "property": "C89",
   "status": "proved",
   "theorems": [
    "JaxCosmo.C89_order",
    "JaxCosmo.C89_uniform"
   ],
   "note": "Exact arithmetic: rounding is not modelled, so the bound holds until rounding error dominates."
  },
  {
   "property": "C90",
   "status": "proved",
   "theorems": [
    "JaxCosmo.C90_solution",
    "JaxCosmo.C90_unique",
    "JaxCosmo.C90_growth",
    "JaxCosmo.C90_rate"
   ],
   "note": "The exact solution starts from the code's initial values at the first node; how far that is from the growing mode started at a = 0 is not covered. The rates hold from some n0 on (before that the last tabulated value could vanish)."
  },
  {
   "property": "C91",
   "status": "proved",
   "theorems": [
    "JaxCosmo.C91_distance",
    "JaxCosmo.C91_growth",
    "JaxCosmo.C91_rate",
    "JaxCosmo.C91_gamma"
   ],
   "note": "Second order, not fourth: linear interpolation dominates. The first-cell defect (C19) does not spoil the order because neighbouring cells of a logarithmic grid have comparable widths."
  },
  {
   "property": "C92",
   "status": "proved",
   "theorems": [
    "JaxCosmo.C92_ratio",
    "JaxCosmo.C92_slope",
    "JaxCosmo.C92_rise",
    "JaxCosmo.C92_fall",
    "JaxCosmo.C92_tail"
   ],
   "note": "Shape on z > 0, where the real power agrees with np.power."
  },
  {
   "property": "C93",
   "status": "proved",
   "theorems": [
    "JaxCosmo.C93_mixture",
    "JaxCosmo.C93_mean",
    "JaxCosmo.C93_second"
   ],
   "note": "pz_fn itself; __call__ additionally divides by the Simpson norm over [0, zmax] (C45)."
  },
  {
   "property": "C94",
   "status": "proved",
   "theorems": [
    "JaxCosmo.C94_simps_modulus",
    "JaxCosmo.C94_simps",
    "JaxCosmo.C94_romb_best",
    "JaxCosmo.C94_romb"
   ],
   "note": "Weights are positive and exact on polynomials, so a Weierstrass argument applies; no differentiability is assumed (C23 has the rates for smooth integrands)."
  },
  {
   "property": "C95",
   "status": "proved",
   "theorems": [
    "JaxCosmo.C95_exact",
    "JaxCosmo.C95_range",
    "JaxCosmo.C95_scale",
    "JaxCosmo.C95_roundtrip",
    "JaxCosmo.C95_lost"
   ],
   "note": "Rounding model: relative error at most u, monotone, exact on one; rounding to nearest even with p binary digits is shown to be such a rounding. Overflow and gradual underflow are not modelled. C01 is the statement in exact arithmetic; C95_lost shows that it does not hold bit for bit."
  },
  {
   "property": "C96",
   "status": "proved",
   "theorems": [
    "JaxCosmo.C96_exact",
    "JaxCosmo.C96_rounding",
    "JaxCosmo.C96_positive",
    "JaxCosmo.C96_total"
   ],
   "note": "The order in which np.sum adds is an arbitrary binary tree over the panels; depth is at most N/2 for sequential summation and log2(N/2) for pairwise."
  },
  {
   "property": "C97",
   "status": "proved",
   "theorems": [
    "JaxCosmo.C97_symmetric",
    "JaxCosmo.C97_accurate"
   ],
   "note": "Spectra and weights are whatever was computed before; multiplication commutes also after rounding."
  },
  {
   "property": "C98",
   "status": "proved",
   "theorems": [
    "JaxCosmo.C98_exact",
    "JaxCosmo.C98_order"
   ],
   "note": "The state is an array rounded entry by entry; the norm is the maximum norm. Extends C89 from exact to rounded arithmetic."
  },
  {
   "property": "C99",
   "status": "proved",
   "theorems": [
    "JaxCosmo.C99_general",
    "JaxCosmo.C99_closed",
    "JaxCosmo.C99_admixture",
    "JaxCosmo.C99_library"
   ],
   "note": "Exact arithmetic. The bound on the decaying admixture is explicit (below 1e-11 for Planck15 and the default range); the constant C of the discretisation error is not."
  },
  {
   "property": "C100",
   "status": "proved",
   "theorems": [
    "JaxCosmo.C100_sky",
    "JaxCosmo.C100_noise",
    "JaxCosmo.C100_survey"
   ],
   "note": "Exact arithmetic; the signal is the same in both surveys."
  },
  {
   "property": "C101",
   "status": "proved",
   "theorems": [
    "JaxCosmo.C101_fisher",
    "JaxCosmo.C101_likelihood"
   ],
   "note": ""
  },
  {
   "property": "C102",
   "status": "proved",
   "theorems": [
    "JaxCosmo.C102_unbiased",
    "JaxCosmo.C102_covariance",
    "JaxCosmo.C102_library"
   ],
   "note": "The number of modes has to be an integer for the statement to have a meaning; the harmonic modes on a masked sky are idealised as independent, as the formula itself supposes."
  },
  {
   "property": "C103",
   "status": "proved",
   "theorems": [
    "JaxCosmo.C103_mean",
    "JaxCosmo.C103_truth",
    "JaxCosmo.C103_variance",
    "JaxCosmo.C103_score"
   ],
   "note": "Exact arithmetic; covariance does not depend on the parameters (as in the library's examples) and the determinant is left out of the averaged value."
  },
  {
   "property": "C104",
   "status": "proved",
   "theorems": [
    "JaxCosmo.C104_oscillating",
    "JaxCosmo.C104_smooth"
   ],
   "note": "The sound horizon in the effective shape is the exact (6), not the approximation (26) that the paper offers for it."
  },
  {
   "property": "C105",
   "status": "proved",
   "theorems": [
    "JaxCosmo.C105_oscillating",
    "JaxCosmo.C105_smooth",
    "JaxCosmo.C105_shape_oscillating",
    "JaxCosmo.C105_shape_smooth",
    "JaxCosmo.C105_large_scales",
    "JaxCosmo.C105_small_scales",
    "JaxCosmo.C105_vanishes",
    "JaxCosmo.C105_turnover"
   ],
   "note": "The theorems on the power spectrum assume of the transfer function what C105_shape_oscillating and C105_shape_smooth prove of the two in the library."
  },
  {
   "property": "C106",
   "status": "proved",
   "theorems": [
    "JaxCosmo.C106_alignment",
    "JaxCosmo.C106_bin",
    "JaxCosmo.C106_sign"
   ],
   "note": "Bins of delta type are refused by the code (C52)."
  },
  {
   "property": "C107",
   "status": "partial",
   "theorems": [
    "JaxCosmo.C107_transverse",
    "JaxCosmo.C107_flat_partial",
    "JaxCosmo.C107_open",
    "JaxCosmo.C107_closed",
    "JaxCosmo.C107_refuted"
   ],
   "note": "Refuted: the code uses radial distances whatever the curvature. Flat universes are right (C107_flat_partial); in every open universe every kernel in front of its source is too large (C107_open), in every closed one too small (C107_closed)."
  },
  {
   "property": "C108",
   "status": "proved",
   "theorems": [
    "JaxCosmo.C108_mixture",
    "JaxCosmo.C108_catalogues",
    "JaxCosmo.C108_lensing",
    "JaxCosmo.C108_alignment",
    "JaxCosmo.C108_clustering",
    "JaxCosmo.C108_spectra"
   ],
   "note": "Shares are those of the library's own Simpson norm."
  },
  {
   "property": "C109",
   "status": "partial",
   "theorems": [
    "JaxCosmo.C109_plane_partial",
    "JaxCosmo.C109_extended_partial",
    "JaxCosmo.C109_observer_partial",
    "JaxCosmo.C109_refuted"
   ],
   "note": "Refuted: norm and efficiency are quadratures on different nodes (256 intervals from 0, respectively from the lens, to zmax). For one galaxy smoothed by 0.001 in redshift the kernel exceeds the bound 500-fold in every physical cosmology. True for source planes, and for extended sources up to the fraction the quadrature finds behind the lens, which is one at the observer."
  },
  {
   "property": "C110",
   "status": "partial",
   "theorems": [
    "JaxCosmo.C110_same_reach_partial",
    "JaxCosmo.C110_plane_partial",
    "JaxCosmo.C110_refuted"
   ],
   "note": "Refuted: every bin is integrated up to the largest zmax in the list, beyond the range on which it was normalised. A bin reaching z = 1 has its kernel multiplied by more than (2-z)/(1-z) when any bin reaching z = 2 is added. True among lists with the same largest zmax, and for source planes."
  },
  {
   "property": "C111",
   "status": "proved",
   "theorems": [
    "JaxCosmo.C111_expansion",
    "JaxCosmo.C111_distance",
    "JaxCosmo.C111_growth",
    "JaxCosmo.C111_poisoned",
    "JaxCosmo.C111_bounce",
    "JaxCosmo.C111_negative",
    "JaxCosmo.C111_bang"
   ],
   "note": "Exact arithmetic extended by +inf, -inf and NaN (Model/Xr.lean); signed zeros and overflow are not modelled. C111_bounce: the constructor accepts closed universes without a big bang, for which every distance, also to today, is NaN (C111_poisoned: one tabulated scale factor with negative squared expansion rate suffices)."
  },
  {
   "property": "C112",
   "status": "proved",
   "theorems": [
    "JaxCosmo.C112_oscillating",
    "JaxCosmo.C112_smooth",
    "JaxCosmo.C112_zero",
    "JaxCosmo.C112_no_baryons",
    "JaxCosmo.C112_variance",
    "JaxCosmo.C112_linear",
    "JaxCosmo.C112_poisoned"
   ],
   "note": "Exact arithmetic with exceptional values (Model/XrPower.lean). At zero wavenumber the oscillating form divides by zero and still returns one (C112_zero), which the real-number model with x/0 = 0 does not reproduce. Without baryons both forms are NaN at every wavenumber (C112_no_baryons)."
  },
  {
   "property": "C113",
   "status": "proved",
   "theorems": [
    "JaxCosmo.C113_dark_matter",
    "JaxCosmo.C113_positive",
    "JaxCosmo.C113_planck"
   ],
   "note": ""
  },
  {
   "property": "C114",
   "status": "proved",
   "theorems": [
    "JaxCosmo.C114_takahashi",
    "JaxCosmo.C114_smith",
    "JaxCosmo.C114_einstein_de_sitter"
   ],
   "note": "Exact arithmetic with exceptional values. In an Einstein-de Sitter universe the Smith et al. prescription interpolates with weight 0/0 and is NaN at every wavenumber but one (C114_einstein_de_sitter)."
  },
  {
   "property": "C115",
   "status": "proved",
   "theorems": [
    "JaxCosmo.C115_kernels",
    "JaxCosmo.C115_spectra",
    "JaxCosmo.C115_low_multipole",
    "JaxCosmo.C115_half",
    "JaxCosmo.C115_shifted_plane"
   ],
   "note": "Exact arithmetic with exceptional values (Model/XrSpectra.lean). For multipoles strictly between 0 and 1 every lensing kernel is NaN (C115_low_multipole, C115_half); a shifted single plane is accepted but its density is never finite (C115_shifted_plane)."
  },
  {
   "property": "C116",
   "status": "proved",
   "theorems": [
    "JaxCosmo.C116_noise",
    "JaxCosmo.C116_no_galaxies",
    "JaxCosmo.C116_covariance",
    "JaxCosmo.C116_pipeline",
    "JaxCosmo.C116_no_modes"
   ],
   "note": "Exact arithmetic with exceptional values. A sample without galaxies has infinite or NaN noise (C116_no_galaxies). With a repeated multipole the dense form has NaN off its diagonal where the sparse form is fine (C116_no_modes): the equality of the two forms (C61) then fails."
  },
  {
   "property": "C117",
   "status": "partial",
   "theorems": [
    "JaxCosmo.C117_origin_partial",
    "JaxCosmo.C117_quadratic",
    "JaxCosmo.C117_refuted"
   ],
   "note": "False for k = 2 (C117_refuted): the accumulated constant starts at an artificial knot half a spacing before the first data point (C117_quadratic gives the exact value). Proved for k = 1 and k = 3 (C117_origin_partial)."
  },
  {
   "property": "C118",
   "status": "proved",
   "theorems": [
    "JaxCosmo.C118_cubic_unique",
    "JaxCosmo.C118_cubic_is",
    "JaxCosmo.C118_quadratic_unique",
    "JaxCosmo.C118_quadratic_is"
   ],
   "note": "Exact arithmetic. Spec/Spline.lean contains the definition of the splines, independent of the code."
  },
  {
   "property": "C119",
   "status": "proved",
   "theorems": [
    "JaxCosmo.C119_linear",
    "JaxCosmo.C119_affine",
    "JaxCosmo.C119_mirror_cubic",
    "JaxCosmo.C119_mirror_quadratic"
   ],
   "note": "Exact arithmetic. The mirror statement is false for the natural endpoint condition, whose last equation is not the natural one (C30)."
  },
  {
   "property": "C120",
   "status": "proved",
   "theorems": [
    "JaxCosmo.C120_expansion",
    "JaxCosmo.C120_distance",
    "JaxCosmo.C120_distance_a",
    "JaxCosmo.C120_growth"
   ],
   "note": "Model/Dual.lean and Model/DualBackground.lean run the code on pairs value/tangent in arithmetic with infinities and NaN, with the JVP rules of the JAX primitives. The transverse distance is in C87."
  },
  {
   "property": "C121",
   "status": "proved",
   "theorems": [
    "JaxCosmo.C121_smooth",
    "JaxCosmo.C121_oscillating",
    "JaxCosmo.C121_variance",
    "JaxCosmo.C121_linear"
   ],
   "note": "Model/DualPower.lean is power.py and transfer.py on pairs value/tangent. The smooth transfer function is covered at k=0 too."
  },
  {
   "property": "C122",
   "status": "partial",
   "theorems": [
    "JaxCosmo.C122_scale_partial",
    "JaxCosmo.C122_takahashi_partial",
    "JaxCosmo.C122_smith_partial",
    "JaxCosmo.C122_unknown",
    "JaxCosmo.C122_refuted"
   ],
   "note": "False as stated (C122_refuted): at amplitudes where 1 is half-way between two neighbouring variances the non-linear scale jumps and has no derivative, while a finite one is returned. Proved (C122_*_partial) off those amplitudes, off the clip at 1e-6, off the kink of the absolute value in the Takahashi alpha_n, and for Smith et al. where C114 requires it."
  },
  {
   "property": "C123",
   "status": "partial",
   "theorems": [
    "JaxCosmo.C123_smail_partial",
    "JaxCosmo.C123_kde",
    "JaxCosmo.C123_shift_partial",
    "JaxCosmo.C123_refuted",
    "JaxCosmo.C123_shift_refuted"
   ],
   "note": "False as stated: for every Smail distribution with 0<b<1 (b=0.9 is the usual LSST value) the tangent with respect to z0 is NaN at every redshift although the derivative exists (C123_refuted), and the same happens to a mean shift at zero (C123_shift_refuted). Proved for b>=1, or z0 not differentiated (C123_smail_partial), for kernel density estimates without restriction (C123_kde) and for mean shifts of Smail distributions with a>1, b>=1 at every shift (C123_shift_partial). Not covered: the shift of a kernel density estimate exactly where z equals the shift (a kink)."
  },
  {
   "property": "C124",
   "status": "partial",
   "theorems": [
    "JaxCosmo.C124_kernel",
    "JaxCosmo.C124_plane",
    "JaxCosmo.C124_refuted"
   ],
   "note": "False as stated: with one Smail bin of exponent b<1 the tangent of the clustering kernel with respect to z0 is NaN at every redshift (C124_refuted, from C123). Proved for every probe made of the distributions for which C123 holds and of source planes at fixed redshift beyond 1/799 (C124_kernel); a moving source plane is proved off the nodes of the distance table (C124_plane). Missing: redshifts strictly between 0 and 1/799, where a distance may sit on the clip at 1 Mpc/h."
  },
  {
   "property": "C125",
   "status": "partial",
   "theorems": [
    "JaxCosmo.C125_linear",
    "JaxCosmo.C125_halofit_partial",
    "JaxCosmo.C125_noise",
    "JaxCosmo.C125_refuted"
   ],
   "note": "False as stated: for a clustering bin with b<1 the tangent with respect to z0 is NaN at every multipole for every cosmology and every power spectrum that returns (C125_refuted). Proved with the linear power spectrum (C125_linear) and for the noise (C125_noise); with halofit under the condition of C122 at the 513 scale factors of the Limber integral (C125_halofit_partial). Missing: the amplitudes at which the non-linear scale jumps at one of these scale factors (no derivative exists there, C81/C122)."
  },
  {
   "property": "C126",
   "status": "partial",
   "theorems": [
    "JaxCosmo.C126_gradient",
    "JaxCosmo.C126_density",
    "JaxCosmo.C126_mean",
    "JaxCosmo.C126_unbounded",
    "JaxCosmo.C126_refuted"
   ],
   "note": "False as stated, a consequence of C64: the gradient is the gradient of the quadratic form PLUS half tr(C^-1 C') (C126_gradient), the density has MINUS half (C126_density); on data drawn from the model the gradient averages to tr(C^-1 C') (half of it without the determinant), and scaling the covariance drives the value to infinity, so there is no maximum (C126_mean, C126_unbounded, C126_refuted)."
  },
  {
   "property": "C127",
   "status": "partial",
   "theorems": [
    "JaxCosmo.C127_covariance",
    "JaxCosmo.C127_linear",
    "JaxCosmo.C127_halofit_partial",
    "JaxCosmo.C127_refuted"
   ],
   "note": "Proved for the linear power spectrum and, for any signal and noise tables with derivatives, for the assembly itself; with halofit under the condition of C122 at the nodes of the Limber integral (C127_halofit_partial)."
  },
  {
   "property": "C128",
   "status": "partial",
   "theorems": [
    "JaxCosmo.C128_likelihood",
    "JaxCosmo.C128_gradient",
    "JaxCosmo.C128_refuted"
   ],
   "note": "Holds when the covariance stays symmetric (C128_likelihood, C128_gradient). False for an asymmetric direction with cholesky: the value does not depend on the upper triangle yet its tangent does (C128_refuted)."
  },
  {
   "property": "C129",
   "status": "partial",
   "theorems": [
    "JaxCosmo.C129_linear",
    "JaxCosmo.C129_halofit_partial",
    "JaxCosmo.C129_refuted"
   ],
   "note": "Proved for the linear power spectrum (C129_linear) and for halofit under the condition of C122 (C129_halofit_partial). False for clustering bins with Smail exponent below one (as used for LSST): the gradient is NaN whatever the rest (C129_refuted)."
  },
  {
   "property": "C130",
   "status": "partial",
   "theorems": [
    "JaxCosmo.C130_hessian",
    "JaxCosmo.C130_density",
    "JaxCosmo.C130_at_mean",
    "JaxCosmo.C130_mean",
    "JaxCosmo.C130_fixed",
    "JaxCosmo.C130_refuted"
   ],
   "note": "False as stated: the average is mu'^T C^-1 mu' + 3/2 tr(C^-1 C' C^-1 C') - tr(C^-1 C'') (C130_mean; with 1 and 1/2 in place of 3/2 and 1 without the determinant), which can be negative (C130_refuted). Holds for a covariance that does not move (C130_fixed), and at data equal to the model mean without the determinant it is the Fisher matrix of the mean even if the covariance moves (C130_at_mean)."
  },
  {
   "property": "C131",
   "status": "proved",
   "theorems": [
    "JaxCosmo.C131_exact",
    "JaxCosmo.C131_rounding",
    "JaxCosmo.C131_table",
    "JaxCosmo.C131_lost",
    "JaxCosmo.C131_close_nodes"
   ],
   "note": "C131_lost: a table value below the rounding unit next to one of size one is returned as zero at its own node, because a*x + b is anchored at x = 0. C131_close_nodes: two nodes closer than the rounding unit make the code extrapolate the line through them. The first segment is excluded as in C19, decreasing tables as in C20."
  },
  {
   "property": "C132",
   "status": "proved",
   "theorems": [
    "JaxCosmo.C132_override",
    "JaxCosmo.C132_planck",
    "JaxCosmo.C132_unknown",
    "JaxCosmo.C132_positional",
    "JaxCosmo.C132_call",
    "JaxCosmo.C132_missing"
   ],
   "note": ""
  },
  {
   "property": "C133",
   "status": "partial",
   "theorems": [
    "JaxCosmo.C133_partial",
    "JaxCosmo.C133_refuted",
    "JaxCosmo.C133_container",
    "JaxCosmo.C133_container_refuted"
   ],
   "note": "False as stated: gamma is not printed (C133_refuted), and a container prints neither its class nor its configuration, so samples of different depth and density print alike (C133_container_refuted). C133_partial: the eight base parameters are determined by the text."
  },
  {
   "property": "C134",
   "status": "partial",
   "theorems": [
    "JaxCosmo.C134_distance",
    "JaxCosmo.C134_spectrum",
    "JaxCosmo.C134_flat_partial",
    "JaxCosmo.C134_open",
    "JaxCosmo.C134_refuted"
   ],
   "note": "C134_distance: the code's integral over the scale factor is the integral over distance, for every integrand (change of variables with the exact distance). C134_spectrum: every entry equals the Limber integral /c^2 to within the variation of the integrand over two Simpson steps. False as stated with curvature: the radial distance is used where the transverse one belongs (C134_refuted; in an open universe the spectrum of a Smail sample always comes out too large, C134_open). C134_flat_partial: without curvature it is right."
  },
  {
   "property": "C135",
   "status": "partial",
   "theorems": [
    "JaxCosmo.C135_methods",
    "JaxCosmo.C135_density",
    "JaxCosmo.C135_bias",
    "JaxCosmo.C135_noise_counts",
    "JaxCosmo.C135_noise_lensing",
    "JaxCosmo.C135_keywords",
    "JaxCosmo.C135_smail",
    "JaxCosmo.C135_delta",
    "JaxCosmo.C135_shift",
    "JaxCosmo.C135_kde",
    "JaxCosmo.C135_late",
    "JaxCosmo.C135_lensing_default",
    "JaxCosmo.C135_lensing",
    "JaxCosmo.C135_counts",
    "JaxCosmo.C135_misspelt",
    "JaxCosmo.C135_refuted"
   ],
   "note": "The refusal part is false: any keyword is accepted and ignored (C135_refuted); a misspelt gals_per_arcmin2 silently gives the noise of one galaxy per square arcminute (C135_misspelt); a Smail distribution with the wrong number of parameters fails only when evaluated (C135_late), a kde without bandwidth likewise (C135_kde)."
  },
  {
   "property": "C136",
   "status": "partial",
   "theorems": [
    "JaxCosmo.C136_partial",
    "JaxCosmo.C136_warm",
    "JaxCosmo.C136_poisoned",
    "JaxCosmo.C136_refuted",
    "JaxCosmo.C136_norm",
    "JaxCosmo.C136_norm_warm",
    "JaxCosmo.C136_leaked"
   ],
   "note": "False for compiled closures over a new object: the tables (and the norm of a redshift distribution) stored by the first call are tracers, and every later call outside raises UnexpectedTracerError (C136_poisoned, C136_norm, C136_refuted). True when compiled functions take the cosmology as an argument and only grad, jvp, vmap close over it (C136_partial), and for all closures once the tables exist (C136_warm, C136_norm_warm)."
  },
  {
   "property": "C137",
   "status": "partial",
   "theorems": [
    "JaxCosmo.C137_estimate",
    "JaxCosmo.C137_zero",
    "JaxCosmo.C137_exact",
    "JaxCosmo.C137_partial",
    "JaxCosmo.C137_converges",
    "JaxCosmo.C137_refuted"
   ],
   "note": "The last part is false for every order: an integrand vanishing at all sample points has value 0, estimate 0 and integral 1 (C137_refuted). What the estimate does bound, up to the error of the value itself, is the error at the previous order (C137_partial)."
  },
  {
   "property": "C138",
   "status": "partial",
   "theorems": [
    "JaxCosmo.C138_linear",
    "JaxCosmo.C138_linear_vec",
    "JaxCosmo.C138_mismatch",
    "JaxCosmo.C138_partial",
    "JaxCosmo.C138_column",
    "JaxCosmo.C138_refuted",
    "JaxCosmo.C138_rows",
    "JaxCosmo.C138_rows_wrong"
   ],
   "note": "Proved for scalars and 1-d arrays in every combination (C138_partial), and for linear_matter_power with wavenumbers of any shape (C138_linear). False for a column of wavenumbers, where halofit multiplies a column with the squeezed linear spectrum and returns a square (C138_column, C138_refuted), and for rows of scale factors, which growth_factor refuses unless they are as long as its table and then answers wrongly (C138_rows, C138_rows_wrong)."
  },
  {
   "property": "C139",
   "status": "proved",
   "theorems": [
    "JaxCosmo.C139_distribution",
    "JaxCosmo.C139_kernels",
    "JaxCosmo.C139_probe",
    "JaxCosmo.C139_spectra",
    "JaxCosmo.C139_power",
    "JaxCosmo.C139_default",
    "JaxCosmo.C139_scalar"
   ],
   "note": "Arrays of multipoles are 1-d and not empty. The power spectrum may be any that acts elementwise on two arrays of the 513 nodes; C139_power shows this for halofit with both prescriptions and for linear. `angular_cl` returns (pairs, multipoles), not the (multipoles, pairs) of its docstring."
  },
  {
   "property": "C140",
   "status": "partial",
   "theorems": [
    "JaxCosmo.C140_formula",
    "JaxCosmo.C140_partial",
    "JaxCosmo.C140_scalar",
    "JaxCosmo.C140_rows",
    "JaxCosmo.C140_shared",
    "JaxCosmo.C140_refuted"
   ],
   "note": "True for the functions given by a formula (C140_formula). For those read off a table it holds for arrays all of whose axes but the first have length one (C140_partial); C140_rows says which exception other shapes raise, C140_shared what shape (1, 2, 1) returns, and C140_refuted that this is wrong in the empty universe."
  },
  {
   "property": "C141",
   "status": "proved",
   "theorems": [
    "JaxCosmo.C141_inverse",
    "JaxCosmo.C141_cholesky",
    "JaxCosmo.C141_sparse",
    "JaxCosmo.C141_posDef",
    "JaxCosmo.C141_indefinite",
    "JaxCosmo.C141_finite",
    "JaxCosmo.C141_pipeline"
   ],
   "note": "The exact condition for a finite result is proved for each branch (C141_inverse, C141_cholesky, C141_sparse). The sparse branch with the determinant needs every trailing block matrix to be invertible; C141_indefinite gives an invertible symmetric matrix for which the dense form is finite and the sparse one is not."
  },
  {
   "property": "C142",
   "status": "proved",
   "theorems": [
    "JaxCosmo.C142_nan",
    "JaxCosmo.C142_det",
    "JaxCosmo.C142_zero",
    "JaxCosmo.C142_infinite"
   ],
   "note": "Sharpens C38, where a singular block met a conventional inverse. C142_zero: the docstring promises NaN for the zero matrix; with one block per side the code returns (0, -inf) and determinant 0."
  },
  {
   "property": "C143",
   "status": "partial",
   "theorems": [
    "JaxCosmo.C143_counts",
    "JaxCosmo.C143_lensing_partial",
    "JaxCosmo.C143_noise",
    "JaxCosmo.C143_overrun",
    "JaxCosmo.C143_refuted"
   ],
   "note": "Refuted for lensing bins of different zmax: the kernel of every bin is integrated to the largest zmax of the probe, past the range over which the bin was normalised (C143_overrun). Holds for clustering bins, for noise, and for lensing bins of probes that reach the same redshift."
  },
  {
   "property": "C144",
   "status": "proved",
   "theorems": [
    "JaxCosmo.C144_select",
    "JaxCosmo.C144_likelihood",
    "JaxCosmo.C144_order"
   ],
   "note": "The renumbering is pinned down by the documented position of a pair of tracers (Renumbers), not by the code's own index lists. Equal zmax is needed for the reason given in C143."
  },
  {
   "property": "C145",
   "status": "proved",
   "theorems": [
    "JaxCosmo.C145_information"
   ],
   "note": "Complements C100 (sky and noise) and C101 (multipoles)."
  },
  {
   "property": "C146",
   "status": "proved",
   "theorems": [
    "JaxCosmo.C146_scaling",
    "JaxCosmo.C146_degenerate",
    "JaxCosmo.C146_fisher",
    "JaxCosmo.C146_joint",
    "JaxCosmo.C146_positive"
   ],
   "note": "Exceptions included: a survey that raises raises the same after the change. The regularity theorem needs a nonzero lensing spectrum and a nonzero galaxy spectrum; C146_positive supplies them from positive kernels and a transfer function without zeros."
  },
  {
   "property": "C147",
   "status": "partial",
   "theorems": [
    "JaxCosmo.C147_last",
    "JaxCosmo.C147_limit",
    "JaxCosmo.C147_bounds_partial",
    "JaxCosmo.C147_converges",
    "JaxCosmo.C147_planck",
    "JaxCosmo.C147_refuted"
   ],
   "note": "Refuted: the limit is the slope of the last segment of the interpolated table, which exceeds the Hubble radius in every such cosmology - by at least two per cent for Planck15 and the default table (C147_planck) - and by at most one and a half table steps (C147_bounds_partial); it converges to it as the number of steps grows (C147_converges)."
  },
  {
   "property": "C148",
   "status": "proved",
   "theorems": [
    "JaxCosmo.C148_nodes",
    "JaxCosmo.C148_accuracy",
    "JaxCosmo.C148_default"
   ],
   "note": "Exact arithmetic. The first cell of the table is excluded because interp uses the wrong chord there (C19). C147 shows that the term with the Hubble radius is needed."
  },
  {
   "property": "C149",
   "status": "proved",
   "theorems": [
    "JaxCosmo.C149_expansion",
    "JaxCosmo.C149_background",
    "JaxCosmo.C149_kernels",
    "JaxCosmo.C149_linear",
    "JaxCosmo.C149_halofit",
    "JaxCosmo.C149_spectra",
    "JaxCosmo.C149_default",
    "JaxCosmo.C149_needed"
   ],
   "note": "Distances are in Mpc/h, so the Hubble constant does not enter. C149_needed shows that no parameter can be dropped from the list."
  },
  {
   "property": "C150",
   "status": "proved",
   "theorems": [
    "JaxCosmo.C150_parabola",
    "JaxCosmo.C150_sparse",
    "JaxCosmo.C150_errors",
    "JaxCosmo.C150_optimal",
    "JaxCosmo.C150_estimator"
   ],
   "note": "The mean of the pipeline is linear in the amplitudes of its spectra but not in the cosmological parameters; for those the statement holds for the linearised model only. With a fixed covariance the wrong sign of the determinant (C64) does not matter."
  },
  {
   "property": "C151",
   "status": "partial",
   "theorems": [
    "JaxCosmo.C151_counts",
    "JaxCosmo.C151_refuted",
    "JaxCosmo.C151_number",
    "JaxCosmo.C151_lensing_partial"
   ],
   "note": "False as stated (C151_refuted, C151_counts): zmax normalises n(z) over [0, zmax] but nothing cuts n(z) there, so next to a probe that reaches further, galaxies beyond zmax are projected too; the number of galaxies then exceeds the one the noise is computed from (C151_number). For lensing tracers without intrinsic alignments the two runs approximate the same integral, with different Simpson nodes (C151_lensing_partial). Same maximum redshift: C57."
  },
  {
   "property": "C152",
   "status": "proved",
   "theorems": [
    "JaxCosmo.C152_chi",
    "JaxCosmo.C152_shift",
    "JaxCosmo.C152_ratio",
    "JaxCosmo.C152_sparse",
    "JaxCosmo.C152_fisher",
    "JaxCosmo.C152_sign"
   ],
   "note": "The common shift is +log|det A|, where a probability density has -log|det A|: the sign of C64 again (C152_sign)."
  },
  {
   "property": "C153",
   "status": "partial",
   "theorems": [
    "JaxCosmo.C153_density",
    "JaxCosmo.C153_modulus",
    "JaxCosmo.C153_kde",
    "JaxCosmo.C153_between",
    "JaxCosmo.C153_node",
    "JaxCosmo.C153_narrow",
    "JaxCosmo.C153_refuted"
   ],
   "note": "False for catalogues narrower than the grid of the quadrature (C153_refuted): galaxies halfway between nodes are missed by the norm and n(z) comes out too large without bound as the bandwidth shrinks (C153_between), galaxies on a node are counted too often and n(z) comes out too small (C153_node); with the default zmax = 10 and bandwidth 1/256 the factors are above 100 and below 1/5 (C153_narrow). True to within 3/sqrt(2 pi) (zmax/bw)^5/(180 256^4) relative to the norm (C153_kde; two per cent for zmax = 10, bw = 0.1), and for every continuous distribution to within its variation over two steps (C153_modulus)."
  },
  {
   "property": "C154",
   "status": "partial",
   "theorems": [
    "JaxCosmo.C154_line",
    "JaxCosmo.C154_line_bounds",
    "JaxCosmo.C154_short",
    "JaxCosmo.C154_recombination",
    "JaxCosmo.C154_refuted"
   ],
   "note": "False (C154_refuted): before the second tabulated scale factor the code follows a straight line (C154_line) that misses at least the local Hubble radius times (1 - sqrt(a/a1))^2 (C154_short), more than one per cent of the distance at redshift 99999. The line never overshoots and the deficit is bounded (C154_line_bounds); down to redshift 1100 the distance is right to 0.017 per cent plus 4 per cent of the Hubble radius at that time (C154_recombination)."
  },
  {
   "property": "C155",
   "status": "partial",
   "theorems": [
    "JaxCosmo.C155_tile",
    "JaxCosmo.C155_uneven",
    "JaxCosmo.C155_geometric_partial",
    "JaxCosmo.C155_modes_partial",
    "JaxCosmo.C155_average_partial",
    "JaxCosmo.C155_refuted"
   ],
   "note": "The bands tile the range (C155_tile). The weight counts the harmonics of the band exactly on grids with constant odd spacing (C155_modes_partial), where the covariance is that of averages over the single multipoles (C155_average_partial). False for uneven grids (C155_refuted): the multipole is not the middle of its band and the weight lacks the width times half the change of spacing (C155_uneven), a factor three for 10, 100, 1000; on geometric grids of ratio r at most a relative (r-1)^2/(4r) (C155_geometric_partial)."
  },
  {
   "property": "C156",
   "status": "partial",
   "theorems": [
    "JaxCosmo.C156_background",
    "JaxCosmo.C156_kernels",
    "JaxCosmo.C156_spectra",
    "JaxCosmo.C156_linear_spectra",
    "JaxCosmo.C156_transverse",
    "JaxCosmo.C156_refuted"
   ],
   "note": "False (C156_refuted): a flat universe whose dark energy has w = -1/3 and the open universe with the same expansion have the same radial distances and growth (C156_background), different transverse distances (C156_transverse), and identical kernels (C156_kernels) and linear spectra in every survey (C156_spectra, C156_linear_spectra): kernels and Limber integral use the radial distance only."
  },
  {
   "property": "C157",
   "status": "proved",
   "theorems": [
    "JaxCosmo.C157_exact",
    "JaxCosmo.C157_rounding",
    "JaxCosmo.C157_positive",
    "JaxCosmo.C157_safe"
   ],
   "note": "The error is at most 2 |b - a| (eta + ((1 + u)^(d + 9 m + 5) - 1) (B + eta)) for samples bounded by B and computed to eta, sums of depth d and divmax = m (C157_rounding); positive for non-negative samples while 2^(m+2) ((1 + u)^(d + 9 m + 5) - 1) < 1/3, which holds in single precision with the settings of sigmasqr (C157_positive)."
  },
  {
   "property": "C158",
   "status": "partial",
   "theorems": [
    "JaxCosmo.C158_exact",
    "JaxCosmo.C158_window_partial",
    "JaxCosmo.C158_sigma8",
    "JaxCosmo.C158_lost",
    "JaxCosmo.C158_zero",
    "JaxCosmo.C158_normalisation",
    "JaxCosmo.C158_small",
    "JaxCosmo.C158_refuted"
   ],
   "note": "True at R = 8, which normalises the spectrum: the window is right to 1e-4 at every wavenumber in the range (C158_sigma8) and the variance positive (C158_normalisation). In general the window is off by a few (u + v)/x^2 (C158_window_partial); below x^2 = 2^-(p+2) it comes out as zero or three times too large whatever library is used (C158_lost), and for R <= 1e-7 the variance is zero (C158_small, C158_refuted)."
  },
  {
   "property": "C159",
   "status": "proved",
   "theorems": [
    "JaxCosmo.C159_oscillating",
    "JaxCosmo.C159_smooth",
    "JaxCosmo.C159_at_zero"
   ],
   "note": "Real numbers, no rounding. The limits are formula (19) of the paper with alpha = beta = 1 (C159_oscillating) and the smooth function with Gamma = Omega_m h (C159_smooth). The code does not attain its own limit: with Omega_b exactly 0 it returns NaN (C159_at_zero, from C112)."
  },
  {
   "property": "C160",
   "status": "partial",
   "theorems": [
    "JaxCosmo.C160_limit_partial",
    "JaxCosmo.C160_lost",
    "JaxCosmo.C160_common",
    "JaxCosmo.C160_divergent",
    "JaxCosmo.C160_refuted"
   ],
   "note": "False. Normalisation and kernel use different nodes; a bin narrower than a step is seen by whichever node is nearest. If the normalisation has a node at z0 the limit is the plane's kernel times a ratio of weights (C160_limit_partial): zero when the kernel's rule misses z0 (C160_lost, C160_refuted), 1 - z/zmax when it has a node of the same kind there (C160_common). If only the kernel's rule has a node at z0 the kernel diverges (C160_divergent)."
  },
  {
   "property": "C161",
   "status": "partial",
   "theorems": [
    "JaxCosmo.C161_derivative",
    "JaxCosmo.C161_accuracy_partial",
    "JaxCosmo.C161_default",
    "JaxCosmo.C161_refuted"
   ],
   "note": "False as an equality: the derivative is the slope of the table (C161_derivative), never equal to c/H throughout the last segment, in any such universe and for any table (C161_refuted). It is within exp(+-2h) of c/H, h the step in ln a (C161_accuracy_partial), i.e. six per cent for the default table (C161_default)."
  },
  {
   "property": "C162",
   "status": "partial",
   "theorems": [
    "JaxCosmo.C162_converges_partial",
    "JaxCosmo.C162_where",
    "JaxCosmo.C162_eds",
    "JaxCosmo.C162_refuted"
   ],
   "note": "False as an equality: with a growth index the two differ in the last segment of the table (C162_refuted), and with the growth equation they agree throughout a segment only if both tabulated rates are exactly 1 (C162_where), as they are in an Einstein-de Sitter universe, where the statement holds (C162_eds). For the growth equation the difference is at most C/n for a table of n steps, at every point between nodes (C162_converges_partial)."
  },
  {
   "property": "C163",
   "status": "partial",
   "theorems": [
    "JaxCosmo.C163_exact",
    "JaxCosmo.C163_table",
    "JaxCosmo.C163_order",
    "JaxCosmo.C163_distance_partial",
    "JaxCosmo.C163_grain",
    "JaxCosmo.C163_lost",
    "JaxCosmo.C163_refuted"
   ],
   "note": "The table is exactly zero today and never increases (C163_order). Its errors are (q + 8 + n) roundings of the whole distance it covers (C163_table), and the distance read has in addition seven roundings of the two terms of a * x + b (C163_distance_partial). As a fraction of the distance the error is unbounded below a third: within the last segment the value is zero or at least 2^(12-p) Mpc/h (C163_grain), so at the last number before today it is wrong by more than a third in every universe, for every table, for every number of digits (C163_lost, C163_refuted)."
  },
  {
   "property": "C164",
   "status": "partial",
   "theorems": [
    "JaxCosmo.C164_exact",
    "JaxCosmo.C164_flat",
    "JaxCosmo.C164_exponent",
    "JaxCosmo.C164_constant",
    "JaxCosmo.C164_rate",
    "JaxCosmo.C164_today_partial",
    "JaxCosmo.C164_curved",
    "JaxCosmo.C164_refuted"
   ],
   "note": "In a flat universe the budget closes exactly for every sum of densities up to two, in every binary format (C164_flat), so H today is exactly 100 and the densities today are those given. With curvature it does not: Omega_k = -2^-p is rounded off in 1 - Omega_k but not in the sum, and Esqr today is 1 - 2^-p (C164_curved, C164_refuted); it is within four roundings (C164_today_partial). At any scale factor the error is q + 4 roundings of the magnitudes, times the error of the exponent (C164_rate, C164_exponent), which is zero for a cosmological constant (C164_constant)."
  },
  {
   "property": "C165",
   "status": "proved",
   "theorems": [
    "JaxCosmo.C165_expansion",
    "JaxCosmo.C165_hubble",
    "JaxCosmo.C165_rate",
    "JaxCosmo.C165_rates",
    "JaxCosmo.C165_table",
    "JaxCosmo.C165_hubble_constant",
    "JaxCosmo.C165_constant",
    "JaxCosmo.C165_default"
   ],
   "note": "C165_expansion, C165_hubble and C165_rate bound the relative errors of Esqr, H and the integrand (H within 2.1e-6 for a cosmological constant, C165_hubble_constant); C165_rates discharges the hypothesis of C163; C165_table combines it with the quadrature error of C148; C165_constant and C165_default are the numbers."
  },
  {
   "property": "C166",
   "status": "partial",
   "theorems": [
    "JaxCosmo.C166_exact",
    "JaxCosmo.C166_range",
    "JaxCosmo.C166_last",
    "JaxCosmo.C166_today_partial",
    "JaxCosmo.C166_computed",
    "JaxCosmo.C166_default",
    "JaxCosmo.C166_rounded",
    "JaxCosmo.C166_refuted"
   ],
   "note": "Without the restriction on the last cell the claim is refuted: single precision, second-last node 12507729/2^25 (the second-last of eight nodes from 10^-3), entry 946285/2^21: one unit in the last place is lost."
  },
  {
   "property": "C167",
   "status": "partial",
   "theorems": [
    "JaxCosmo.C167_exact",
    "JaxCosmo.C167_chi2",
    "JaxCosmo.C167_relative",
    "JaxCosmo.C167_rounding_partial",
    "JaxCosmo.C167_absorbed",
    "JaxCosmo.C167_same",
    "JaxCosmo.C167_refuted",
    "JaxCosmo.C167_single_partial"
   ],
   "note": "The last two claims are refuted in single precision: with 2^18 multipoles of variance 2^-93 a fit with chi^2 = 1/2 has exactly the likelihood of a perfect fit, and the determinant of two such entries is zero although slogdet is finite."
  },
  {
   "property": "C168",
   "status": "partial",
   "theorems": [
    "JaxCosmo.C168_exact",
    "JaxCosmo.C168_symmetric",
    "JaxCosmo.C168_rounding",
    "JaxCosmo.C168_relative",
    "JaxCosmo.C168_auto",
    "JaxCosmo.C168_psd_partial",
    "JaxCosmo.C168_single_partial",
    "JaxCosmo.C168_refuted"
   ],
   "note": "Without noise the last claim is refuted in single precision: kernels 1 and 4097/4096 at one node violate the Cauchy-Schwarz inequality. It is proved when the noise exceeds the rounding error: for up to ten tracers a noise of 2e-4 of each auto-spectrum."
  },
  {
   "property": "C169",
   "status": "partial",
   "theorems": [
    "JaxCosmo.C169_exact",
    "JaxCosmo.C169_distribution",
    "JaxCosmo.C169_total",
    "JaxCosmo.C169_row",
    "JaxCosmo.C169_behind",
    "JaxCosmo.C169_plane",
    "JaxCosmo.C169_spin_partial",
    "JaxCosmo.C169_spin_single",
    "JaxCosmo.C169_kernel",
    "JaxCosmo.C169_refuted"
   ],
   "note": "The claims on the prefactor are refuted in single precision even with a correctly rounded square root: it is 8388609/8388608 at ell = 7003 and falls from ell = 436 to 437. It is right to one part in a million."
  },
  {
   "property": "C170",
   "status": "proved",
   "theorems": [
    "JaxCosmo.C170_exact",
    "JaxCosmo.C170_mean",
    "JaxCosmo.C170_variance",
    "JaxCosmo.C170_truth",
    "JaxCosmo.C170_chi2",
    "JaxCosmo.C170_single"
   ],
   "note": "The numbers that enter the Limber sum at the nodes are given; their own errors are bounded in other properties. Sparse covariance, one tracer, no overflow or underflow."
  },
  {
   "property": "C171",
   "status": "partial",
   "theorems": [
    "JaxCosmo.C171_exact",
    "JaxCosmo.C171_pivot",
    "JaxCosmo.C171_order",
    "JaxCosmo.C171_density",
    "JaxCosmo.C171_alignment",
    "JaxCosmo.C171_shear_partial",
    "JaxCosmo.C171_safe",
    "JaxCosmo.C171_refuted"
   ],
   "note": "The sign claim is refuted in single precision with the best possible square root: lensing and alignments that cancel to a few parts in 10^8 give a negative kernel where the exact one is positive. Away from cancellation the relative error is small."
  },
  {
   "property": "C172",
   "status": "partial",
   "theorems": [
    "JaxCosmo.C172_binary",
    "JaxCosmo.C172_kernels",
    "JaxCosmo.C172_spectra",
    "JaxCosmo.C172_covariance",
    "JaxCosmo.C172_chi2",
    "JaxCosmo.C172_forecast",
    "JaxCosmo.C172_interp",
    "JaxCosmo.C172_distance",
    "JaxCosmo.C172_exact",
    "JaxCosmo.C172_power",
    "JaxCosmo.C172_refuted"
   ],
   "note": "Proved for c a power of two of either sign (distances: positive). For other factors the claim is refuted: in single precision a factor of five changes a chi-square of one to 1 - 2^-24. Exponents are unbounded in this model, so overflow and underflow are outside it."
  },
  {
   "property": "C173",
   "status": "partial",
   "theorems": [
    "JaxCosmo.C173_normal",
    "JaxCosmo.C173_small",
    "JaxCosmo.C173_variance",
    "JaxCosmo.C173_chi2",
    "JaxCosmo.C173_fit",
    "JaxCosmo.C173_units_partial",
    "JaxCosmo.C173_refuted"
   ],
   "note": "Without a restriction the last two claims are refuted: variances are products of spectra, so that in units in which spectra are about 2^-76 a perfect fit is NaN, and in units in which they are about 2^64 a misfit of ten standard deviations has a chi-square of zero, although all inputs are single-precision numbers. Proved for spectra between 2^-45 and 2^45, 2^-33 to 2^33 modes, and residuals of zero or 2^-20 to 2^20 standard deviations."
  },
  {
   "property": "C174",
   "status": "partial",
   "theorems": [
    "JaxCosmo.C174_mirror",
    "JaxCosmo.C174_two",
    "JaxCosmo.C174_whole",
    "JaxCosmo.C174_monotone",
    "JaxCosmo.C174_largest",
    "JaxCosmo.C174_spread",
    "JaxCosmo.C174_chi2_partial",
    "JaxCosmo.C174_spectrum_partial",
    "JaxCosmo.C174_refuted"
   ],
   "note": "The last claim is refuted in single precision with three bands; with exact operations it holds. What remains is a bound: chi-squares and spectra in two orders differ by at most twice the rounding error of the deeper one."
  },
  {
   "property": "C175",
   "status": "partial",
   "theorems": [
    "JaxCosmo.C175_exact",
    "JaxCosmo.C175_smooth",
    "JaxCosmo.C175_tilde",
    "JaxCosmo.C175_cdm",
    "JaxCosmo.C175_shape",
    "JaxCosmo.C175_accuracy",
    "JaxCosmo.C175_fit",
    "JaxCosmo.C175_unity",
    "JaxCosmo.C175_below_partial",
    "JaxCosmo.C175_refuted"
   ],
   "note": "The last claim holds in exact arithmetic and is refuted in single precision: for every wavenumber below the shape over 2^21 the result is exactly one, so modes are neither suppressed nor ordered there. It is kept where the exact value is below one by more than the accuracy."
  },
  {
   "property": "C176",
   "status": "proved",
   "theorems": [
    "JaxCosmo.C176_gamma",
    "JaxCosmo.C176_transfer",
    "JaxCosmo.C176_linear",
    "JaxCosmo.C176_ratio",
    "JaxCosmo.C176_power",
    "JaxCosmo.C176_single",
    "JaxCosmo.C176_any",
    "JaxCosmo.C176_gamma_inputs",
    "JaxCosmo.C176_inputs",
    "JaxCosmo.C176_alpha_exact",
    "JaxCosmo.C176_alpha",
    "JaxCosmo.C176_computed"
   ],
   "note": "The figure is for alpha_gamma and the sound horizon as the exact model has them; with alpha_gamma as computed and the sound horizon good to 69 roundings it is one and a half per cent (C176_computed). The computation of the sound horizon is not followed, and only the smooth transfer function is."
  },
  {
   "property": "C177",
   "status": "partial",
   "theorems": [
    "JaxCosmo.C177_power",
    "JaxCosmo.C177_spectrum",
    "JaxCosmo.C177_noise",
    "JaxCosmo.C177_variance",
    "JaxCosmo.C177_chi2",
    "JaxCosmo.C177_survey",
    "JaxCosmo.C177_tells_partial",
    "JaxCosmo.C177_refuted"
   ],
   "note": "The last claim holds with exact operations and is refuted in single precision, where two noise levels below the last digit of the spectrum give the same number; it is kept for noise that stands out from two roundings."
  },
  {
   "property": "C178",
   "status": "proved",
   "theorems": [
    "JaxCosmo.C178_fit",
    "JaxCosmo.C178_tilde",
    "JaxCosmo.C178_cdm",
    "JaxCosmo.C178_mix"
   ],
   "note": "k_eq, the sound horizon, alpha_c and beta_c enter as computed; the accuracy of the power is asked for at the argument in question with the exponent as the format holds it."
  },
  {
   "property": "C179",
   "status": "partial",
   "theorems": [
    "JaxCosmo.C179_transfer",
    "JaxCosmo.C179_primordial",
    "JaxCosmo.C179_slope",
    "JaxCosmo.C179_refuted"
   ],
   "note": "The growth factor, alpha_gamma and the sound horizon enter as computed; the primordial spectrum of index one is taken as max(k, 0)."
  }
 ]
}