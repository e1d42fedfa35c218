Props.C01_boot_empty_kept: Classical.choice, Quot.sound, propext
Props.C01_boot_none: Quot.sound, propext
Props.C01_boot_population: Classical.choice, Quot.sound, propext
Props.C01_boot_population_reach: Classical.choice, Quot.sound, propext
Props.C02_false: Classical.choice, Quot.sound, propext
Props.C02_negative_axes_partial: Classical.choice, Quot.sound, propext
Props.C03_counts_all: Classical.choice, Quot.sound, propext
Props.C03_counts_kept: Classical.choice, Quot.sound, propext
Props.C03_draws: Classical.choice, Quot.sound, propext
Props.C03_reliability_all: Classical.choice, Quot.sound, propext
Props.C03_reliability_boot_all: Classical.choice, Quot.sound, propext
Props.C03_reliability_boot_kept: Classical.choice, Quot.sound, propext
Props.C03_reliability_kept: Classical.choice, Quot.sound, propext
Props.C04_pairs_kept_together: Classical.choice, Quot.sound, propext
Props.C04_pairs_kept_together_boot: Classical.choice, Quot.sound, propext
Props.C05_brier_decomp: Classical.choice, Quot.sound, propext
Props.C05_brier_decomp_boot: Classical.choice, Quot.sound, propext
Props.C05_corr: Classical.choice, Quot.sound, propext
Props.C05_corr_boot: Classical.choice, Quot.sound, propext
Props.C05_slices: Classical.choice, Quot.sound, propext
Props.C06_spread_skill_boot_shape: Classical.choice, Quot.sound, propext
Props.C06_spread_skill_shape: Classical.choice, Quot.sound, propext
Props.C07_average_of_averages: Classical.choice, Quot.sound, propext
Props.C08_error_inequalities: Classical.choice, Quot.sound, propext
Props.C09_fraction: Classical.choice, Quot.sound, propext
Props.C09_function: Classical.choice, Quot.sound, propext
Props.C09_range_monotone: Classical.choice, Quot.sound, propext
Props.C100_again_false: Classical.choice, Quot.sound, propext
Props.C100_again_partial: Classical.choice, Quot.sound, propext
Props.C100_frame: Classical.choice, Quot.sound, propext
Props.C100_method: Classical.choice, Quot.sound, propext
Props.C100_refused_false: Classical.choice, Quot.sound, propext
Props.C100_returns: Classical.choice, Quot.sound, propext
Props.C100_shared_false: Classical.choice, Quot.sound, propext
Props.C101_ens_spread_skill: Classical.choice, Quot.sound, propext
Props.C101_reliability_all: Classical.choice, Quot.sound, propext
Props.C101_reliability_kept: Classical.choice, Quot.sound, propext
Props.C101_spread_skill: Classical.choice, Quot.sound, propext
Props.C102_brier: Classical.choice, Quot.sound, propext
Props.C102_crps: Classical.choice, Quot.sound, propext
Props.C102_crps_cut: Classical.choice, Quot.sound, propext
Props.C102_det_cut: Classical.choice, Quot.sound, propext
Props.C102_errors: Classical.choice, Quot.sound, propext
Props.C103_dir_none: Classical.choice, Quot.sound, propext
Props.C103_newline: Classical.choice, Quot.sound, propext
Props.C103_raises: Classical.choice, Quot.sound, propext
Props.C103_shows: Classical.choice, Quot.sound, propext
Props.C104_all: Classical.choice, Quot.sound, propext
Props.C104_closed: Classical.choice, Quot.sound, propext
Props.C104_ensemble: Classical.choice, Quot.sound, propext
Props.C104_exact: Classical.choice, Quot.sound, propext
Props.C104_general: Classical.choice, Quot.sound, propext
Props.C104_kept: Classical.choice, Quot.sound, propext
Props.C104_probability: Classical.choice, Quot.sound, propext
Props.C104_same: Classical.choice, Quot.sound, propext
Props.C105_any: Classical.choice, Quot.sound, propext
Props.C105_history: Classical.choice, Quot.sound, propext
Props.C106_alone: Classical.choice, Quot.sound, propext
Props.C106_crps: Classical.choice, Quot.sound, propext
Props.C106_errors: Classical.choice, Quot.sound, propext
Props.C107_murphy: Classical.choice, Quot.sound, propext
Props.C108_brier: Classical.choice, Quot.sound, propext
Props.C108_crps: Classical.choice, Quot.sound, propext
Props.C108_errors: Classical.choice, Quot.sound, propext
Props.C108_jump: Classical.choice, Quot.sound, propext
Props.C108_mean: Classical.choice, Quot.sound, propext
Props.C108_spread: Classical.choice, Quot.sound, propext
Props.C109_crps: Classical.choice, Quot.sound, propext
Props.C109_energy: Classical.choice, Quot.sound, propext
Props.C109_numba: Classical.choice, Quot.sound, propext
Props.C109_range: Classical.choice, Quot.sound, propext
Props.C109_score: Classical.choice, Quot.sound, propext
Props.C10_empty: Classical.choice, Quot.sound, propext
Props.C10_workers: Classical.choice, Quot.sound, propext
Props.C110_adds_up: Classical.choice, Quot.sound, propext
Props.C110_float_twenty: Classical.choice, Quot.sound, propext
Props.C110_identity: Classical.choice, Quot.sound, propext
Props.C110_million: Classical.choice, Quot.sound, propext
Props.C110_rounded: Classical.choice, Quot.sound, propext
Props.C110_slice: Classical.choice, Quot.sound, propext
Props.C110_twenty: Classical.choice, Quot.sound, propext
Props.C111_distinct: Classical.choice, Quot.sound, propext
Props.C111_ends: Classical.choice, Quot.sound, propext
Props.C111_false: Classical.choice, Quot.sound, propext
Props.C111_values_partial: Classical.choice, Quot.sound, propext
Props.C112_false: Classical.choice, Quot.sound, propext
Props.C112_history_partial: Classical.choice, Quot.sound, propext
Props.C112_no_points: Classical.choice, Quot.sound, propext
Props.C112_no_workers: Classical.choice, Quot.sound, propext
Props.C112_values: Classical.choice, Quot.sound, propext
Props.C112_without_failure: Classical.choice, Quot.sound, propext
Props.C113_average: Classical.choice, Quot.sound, propext
Props.C113_dist: Classical.choice, Quot.sound, propext
Props.C113_float64: Classical.choice, Quot.sound, propext
Props.C113_point: Classical.choice, Quot.sound, propext
Props.C114_adds: Classical.choice, Quot.sound, propext
Props.C114_clash_false: Classical.choice, Quot.sound, propext
Props.C114_false: Classical.choice, Quot.sound, propext
Props.C114_inside_partial: Classical.choice, Quot.sound, propext
Props.C114_lost: Classical.choice, Quot.sound, propext
Props.C114_plain: Classical.choice, Quot.sound, propext
Props.C114_same: Classical.choice, Quot.sound, propext
Props.C115_crps: Classical.choice, Quot.sound, propext
Props.C115_decomp: Classical.choice, Quot.sound, propext
Props.C115_integral: Classical.choice, Quot.sound, propext
Props.C115_not_positive: Classical.choice, Quot.sound, propext
Props.C116_ens: Classical.choice, Quot.sound, propext
Props.C116_gamma: Classical.choice, Quot.sound, propext
Props.C116_gamma_best: Classical.choice, Quot.sound, propext
Props.C116_gauss: Classical.choice, Quot.sound, propext
Props.C116_gauss_best: Classical.choice, Quot.sound, propext
Props.C117_gamma: Classical.choice, Quot.sound, propext
Props.C117_gauss: Classical.choice, Quot.sound, propext
Props.C117_hurdle: Classical.choice, Quot.sound, propext
Props.C118_crps: Classical.choice, Quot.sound, propext
Props.C118_errors: Classical.choice, Quot.sound, propext
Props.C118_honest: Classical.choice, Quot.sound, propext
Props.C119_flat: Classical.choice, Quot.sound, propext
Props.C119_iid: Classical.choice, Quot.sound, propext
Props.C119_ties: Classical.choice, Quot.sound, propext
Props.C11_false: Classical.choice, Quot.sound, propext
Props.C11_perfect_partial: Classical.choice, Quot.sound, propext
Props.C11_range_partial: Classical.choice, Quot.sound, propext
Props.C120_ens: Classical.choice, Quot.sound, propext
Props.C120_ens_random: Classical.choice, Quot.sound, propext
Props.C120_gamma: Classical.choice, Quot.sound, propext
Props.C120_gauss: Classical.choice, Quot.sound, propext
Props.C120_hurdle: Classical.choice, Quot.sound, propext
Props.C121_ens: Classical.choice, Quot.sound, propext
Props.C121_gamma: Classical.choice, Quot.sound, propext
Props.C121_gauss: Classical.choice, Quot.sound, propext
Props.C121_hurdle: Classical.choice, Quot.sound, propext
Props.C122_gamma: Classical.choice, Quot.sound, propext
Props.C122_gauss: Classical.choice, Quot.sound, propext
Props.C123_ens: Classical.choice, Quot.sound, propext
Props.C123_gamma: Classical.choice, Quot.sound, propext
Props.C123_gauss: Classical.choice, Quot.sound, propext
Props.C123_truncated: Classical.choice, Quot.sound, propext
Props.C123_truncated_off_diagonal: Classical.choice, Quot.sound, propext
Props.C124_one: Classical.choice, Quot.sound, propext
Props.C124_sign: Classical.choice, Quot.sound, propext
Props.C124_special: Classical.choice, Quot.sound, propext
Props.C124_two: Classical.choice, Quot.sound, propext
Props.C125_one: Classical.choice, Quot.sound, propext
Props.C125_order: Classical.choice, Quot.sound, propext
Props.C125_special: Classical.choice, Quot.sound, propext
Props.C125_tails: Classical.choice, Quot.sound, propext
Props.C126_fresh: Classical.choice, Quot.sound, propext
Props.C126_history: Classical.choice, Quot.sound, propext
Props.C126_members: Classical.choice, Quot.sound, propext
Props.C126_repeat: Classical.choice, Quot.sound, propext
Props.C127_collapse: Classical.choice, Quot.sound, propext
Props.C127_crps: Classical.choice, Quot.sound, propext
Props.C127_guess: none
Props.C127_guess_safe: Classical.choice, Quot.sound, propext
Props.C127_history: Classical.choice, Quot.sound, propext
Props.C127_kde: Classical.choice, Quot.sound, propext
Props.C127_ranks: Classical.choice, Quot.sound, propext
Props.C128_diagonal: Classical.choice, Quot.sound, propext
Props.C128_gamma: Classical.choice, Quot.sound, propext
Props.C128_gamma_censored: Classical.choice, Quot.sound, propext
Props.C128_gauss: Classical.choice, Quot.sound, propext
Props.C128_signs: Classical.choice, Quot.sound, propext
Props.C129_bias: Classical.choice, Quot.sound, propext
Props.C129_ens: Classical.choice, Quot.sound, propext
Props.C129_gamma: Classical.choice, Quot.sound, propext
Props.C129_gauss: Classical.choice, Quot.sound, propext
Props.C129_hurdle: Classical.choice, Quot.sound, propext
Props.C129_right: Classical.choice, Quot.sound, propext
Props.C129_useless: Classical.choice, Quot.sound, propext
Props.C12_complement_partial: Classical.choice, Quot.sound, propext
Props.C12_false: Classical.choice, Quot.sound, propext
Props.C130_announces_ens: Classical.choice, Quot.sound, propext
Props.C130_announces_gamma: Classical.choice, Quot.sound, propext
Props.C130_announces_gauss: Classical.choice, Quot.sound, propext
Props.C130_announces_hurdle: Classical.choice, Quot.sound, propext
Props.C130_band: Classical.choice, Quot.sound, propext
Props.C130_brier: Classical.choice, Quot.sound, propext
Props.C130_compare: Classical.choice, Quot.sound, propext
Props.C130_reliability: Classical.choice, Quot.sound, propext
Props.C131_best_brier: Classical.choice, Quot.sound, propext
Props.C131_best_crps: Classical.choice, Quot.sound, propext
Props.C131_best_gauss: Classical.choice, Quot.sound, propext
Props.C131_better: Classical.choice, Quot.sound, propext
Props.C131_brier: Classical.choice, Quot.sound, propext
Props.C131_crps_ens: Classical.choice, Quot.sound, propext
Props.C131_crps_gamma: Classical.choice, Quot.sound, propext
Props.C131_crps_gauss: Classical.choice, Quot.sound, propext
Props.C131_errors: Classical.choice, Quot.sound, propext
Props.C131_finite_fixed: Classical.choice, Quot.sound, propext
Props.C131_finite_gauss: Classical.choice, Quot.sound, propext
Props.C131_says_ens: Classical.choice, Quot.sound, propext
Props.C131_says_gamma: Classical.choice, Quot.sound, propext
Props.C131_says_gauss: Classical.choice, Quot.sound, propext
Props.C131_says_hurdle: Classical.choice, Quot.sound, propext
Props.C132_corr: Classical.choice, Quot.sound, propext
Props.C132_decomp: Classical.choice, Quot.sound, propext
Props.C132_diagonal: Classical.choice, Quot.sound, propext
Props.C132_rel_zero: Classical.choice, Quot.sound, propext
Props.C132_reliability: Classical.choice, Quot.sound, propext
Props.C133_coordinates: Classical.choice, Quot.sound, propext
Props.C133_dates: Classical.choice, Quot.sound, propext
Props.C133_durations: Classical.choice, Quot.sound, propext
Props.C133_early: Classical.choice, Quot.sound, propext
Props.C133_false_search: Classical.choice, Quot.sound, propext
Props.C133_false_units: Classical.choice, Quot.sound, propext
Props.C133_frame: Classical.choice, Quot.sound, propext
Props.C133_meant_partial: Classical.choice, Quot.sound, propext
Props.C133_numbers: Classical.choice, Quot.sound, propext
Props.C133_own: Classical.choice, Quot.sound, propext
Props.C133_plain: Classical.choice, Quot.sound, propext
Props.C133_succeeds: Classical.choice, Quot.sound, propext
Props.C133_texts: Classical.choice, Quot.sound, propext
Props.C134_iou_determ: Classical.choice, Quot.sound, propext
Props.C134_iou_prob: Classical.choice, Quot.sound, propext
Props.C134_pit: Classical.choice, Quot.sound, propext
Props.C134_ranks: Classical.choice, Quot.sound, propext
Props.C135_normal: Classical.choice, Quot.sound, propext
Props.C135_power: Classical.choice, Quot.sound, propext
Props.C135_power_second: Classical.choice, Quot.sound, propext
Props.C135_size: Classical.choice, Quot.sound, propext
Props.C136_boot_arr: Classical.choice, Quot.sound, propext
Props.C136_boot_vec: Classical.choice, Quot.sound, propext
Props.C136_draws: Classical.choice, Quot.sound, propext
Props.C136_errors: Classical.choice, Quot.sound, propext
Props.C136_metrics: Classical.choice, Quot.sound, propext
Props.C136_nominal: Classical.choice, Quot.sound, propext
Props.C137_boot: Classical.choice, Quot.sound, propext
Props.C137_int: Classical.choice, Quot.sound, propext
Props.C137_integration: Classical.choice, Quot.sound, propext
Props.C137_switch: Classical.choice, Quot.sound, propext
Props.C138_boot_arr: Classical.choice, Quot.sound, propext
Props.C138_boot_vec: Classical.choice, Quot.sound, propext
Props.C138_errors: Classical.choice, Quot.sound, propext
Props.C138_metrics: Classical.choice, Quot.sound, propext
Props.C139_average: Classical.choice, Quot.sound, propext
Props.C139_boot: Classical.choice, Quot.sound, propext
Props.C139_needed: Classical.choice, Quot.sound, propext
Props.C13_brier_decomp: Classical.choice, Quot.sound, propext
Props.C13_decomposition: Classical.choice, Quot.sound, propext
Props.C13_defined: Classical.choice, Quot.sound, propext
Props.C140_no_skill: Classical.choice, Quot.sound, propext
Props.C140_order: Classical.choice, Quot.sound, propext
Props.C140_perfect: Classical.choice, Quot.sound, propext
Props.C140_roc: Classical.choice, Quot.sound, propext
Props.C141_best: Classical.choice, Quot.sound, propext
Props.C141_half: Classical.choice, Quot.sound, propext
Props.C141_overtakes: Classical.choice, Quot.sound, propext
Props.C141_strict: Classical.choice, Quot.sound, propext
Props.C142_one: Classical.choice, Quot.sound, propext
Props.C142_places: Classical.choice, Quot.sound, propext
Props.C142_roc: Classical.choice, Quot.sound, propext
Props.C142_same: Classical.choice, Quot.sound, propext
Props.C143_best: Classical.choice, Quot.sound, propext
Props.C143_overtakes: Classical.choice, Quot.sound, propext
Props.C143_strict: Classical.choice, Quot.sound, propext
Props.C144_diagonal: Classical.choice, Quot.sound, propext
Props.C144_one: Classical.choice, Quot.sound, propext
Props.C144_places: Classical.choice, Quot.sound, propext
Props.C144_reliability: Classical.choice, Quot.sound, propext
Props.C145_brier: Classical.choice, Quot.sound, propext
Props.C145_constant: Classical.choice, Quot.sound, propext
Props.C145_decomp: Classical.choice, Quot.sound, propext
Props.C145_places: Classical.choice, Quot.sound, propext
Props.C146_average: Classical.choice, Quot.sound, propext
Props.C146_cancel: Classical.choice, Quot.sound, propext
Props.C147_corr: Classical.choice, Quot.sound, propext
Props.C147_one: Classical.choice, Quot.sound, propext
Props.C147_places: Classical.choice, Quot.sound, propext
Props.C148_average: Classical.choice, Quot.sound, propext
Props.C148_places: Classical.choice, Quot.sound, propext
Props.C148_rmse: Classical.choice, Quot.sound, propext
Props.C149_keep: Classical.choice, Quot.sound, propext
Props.C149_places: Classical.choice, Quot.sound, propext
Props.C149_random: Classical.choice, Quot.sound, propext
Props.C149_skip: Classical.choice, Quot.sound, propext
Props.C14_errors: Quot.sound, propext
Props.C14_possible_rank: Classical.choice, Quot.sound, propext
Props.C14_skip: Classical.choice, Quot.sound, propext
Props.C15_false: Classical.choice, Quot.sound, propext
Props.C15_reachable_partial: Classical.choice, Quot.sound, propext
Props.C16_workers: Classical.choice, Quot.sound, propext
Props.C16_workers_skip: Classical.choice, Quot.sound, propext
Props.C17_exactly_one_bin: Classical.choice, Quot.sound, propext
Props.C17_general_call: Classical.choice, Quot.sound, propext
Props.C17_partition: Classical.choice, Quot.sound, propext
Props.C18_bins_balanced_ordered: Classical.choice, Quot.sound, propext
Props.C18_spread_defined: Classical.choice, Quot.sound, propext
Props.C18_too_many_bins: Classical.choice, Quot.sound, propext
Props.C19_determ_all_partial: Classical.choice, Quot.sound, propext
Props.C19_determ_partial: Classical.choice, Quot.sound, propext
Props.C19_false: Classical.choice, Quot.sound, propext
Props.C19_prob_all_partial: Classical.choice, Quot.sound, propext
Props.C19_prob_partial: Classical.choice, Quot.sound, propext
Props.C19_symmetric_partial: Classical.choice, Quot.sound, propext
Props.C20_pairs: Classical.choice, Quot.sound, propext
Props.C21_affine: Classical.choice, Quot.sound, propext
Props.C21_affine_obs: Classical.choice, Quot.sound, propext
Props.C21_bounded: Classical.choice, Quot.sound, propext
Props.C21_reorder: Classical.choice, Quot.sound, propext
Props.C21_symmetric: Classical.choice, Quot.sound, propext
Props.C22_antisymmetric: Classical.choice, Quot.sound, propext
Props.C22_scale: Classical.choice, Quot.sound, propext
Props.C22_shift: Quot.sound, propext
Props.C23_accepted: Quot.sound, propext
Props.C23_harvey: Classical.choice, Quot.sound, propext
Props.C23_pvalue: Classical.choice, Quot.sound, propext
Props.C23_shrinks: Classical.choice, Quot.sound, propext
Props.C23_statistic: Classical.choice, Quot.sound, propext
Props.C23_variance_formula: Classical.choice, Quot.sound, propext
Props.C23_variance_nonneg: Classical.choice, Quot.sound, propext
Props.C24_boot_constant: Classical.choice, Quot.sound, propext
Props.C24_boot_defined: Classical.choice, Quot.sound, propext
Props.C24_boot_interval: Classical.choice, Quot.sound, propext
Props.C25_false: Classical.choice, Quot.sound, propext
Props.C25_mean_inside_partial: Classical.choice, Quot.sound, propext
Props.C26_false: Classical.choice, Quot.sound, propext
Props.C26_ordered_partial: Classical.choice, Quot.sound, propext
Props.C26_relation_partial: Classical.choice, Quot.sound, propext
Props.C27_false: Classical.choice, Quot.sound, propext
Props.C27_nonneg_partial: Classical.choice, Quot.sound, propext
Props.C27_scale_invariant_partial: Classical.choice, Quot.sound, propext
Props.C28_crps: Classical.choice, Quot.sound, propext
Props.C28_mean_in_range: Classical.choice, Quot.sound, propext
Props.C28_value: Classical.choice, Quot.sound, propext
Props.C28_variance_nonneg: Classical.choice, Quot.sound, propext
Props.C29_exactly_once: Quot.sound, propext
Props.C29_schedule: Classical.choice, Quot.sound, propext
Props.C30_empty: Classical.choice, Quot.sound, propext
Props.C30_same: Classical.choice, Quot.sound, propext
Props.C30_scratch_gone: Classical.choice, Quot.sound, propext
Props.C31_covers_partial: Classical.choice, Quot.sound, propext
Props.C31_false: Classical.choice, Quot.sound, propext
Props.C31_grid: Classical.choice, Quot.sound, propext
Props.C32_false: Classical.choice, Quot.sound, propext
Props.C32_restored_partial: Classical.choice, Quot.sound, propext
Props.C33_monotone: Classical.choice, Quot.sound, propext
Props.C33_value: Classical.choice, Quot.sound, propext
Props.C34_excess_partial: Classical.choice, Quot.sound, propext
Props.C34_false: Classical.choice, Quot.sound, propext
Props.C35_complement: Classical.choice, Quot.sound, propext
Props.C35_gamma: Quot.sound, propext
Props.C35_gaussian: Quot.sound, propext
Props.C35_hurdle: Quot.sound, propext
Props.C35_no_axes: Classical.choice, Quot.sound, propext
Props.C35_rejects: Classical.choice, Quot.sound, propext
Props.C36_broadcast_false: Classical.choice, Quot.sound, propext
Props.C36_false: Classical.choice, Quot.sound, propext
Props.C36_gamma_partial: Classical.choice, Quot.sound, propext
Props.C36_gaussian_partial: Classical.choice, Quot.sound, propext
Props.C36_hurdle_partial: Classical.choice, Quot.sound, propext
Props.C36_truncgamma_ignores_threshold: Classical.choice, Quot.sound, propext
Props.C37_bounds: Classical.choice, Quot.sound, propext
Props.C37_false: Classical.choice, Quot.sound, propext
Props.C37_inverts: Classical.choice, Quot.sound, propext
Props.C37_monotone_partial: Classical.choice, Quot.sound, propext
Props.C37_sample: Classical.choice, Quot.sound, propext
Props.C38_class: Classical.choice, Quot.sound, propext
Props.C38_integral: Classical.choice, Quot.sound, propext
Props.C38_nan: Classical.choice, Quot.sound, propext
Props.C38_scaling: Classical.choice, Quot.sound, propext
Props.C38_slope: Classical.choice, Quot.sound, propext
Props.C38_spec_is_cdf: Classical.choice, Quot.sound, propext
Props.C38_translation: Classical.choice, Quot.sound, propext
Props.C39_integral: Classical.choice, Quot.sound, propext
Props.C39_negative_obs: Classical.choice, Quot.sound, propext
Props.C39_reduced: Quot.sound, propext
Props.C39_scaling: Classical.choice, Quot.sound, propext
Props.C40_no_rows: Classical.choice, Quot.sound, propext
Props.C40_split: Classical.choice, Quot.sound, propext
Props.C41_pit: Classical.choice, Quot.sound, propext
Props.C41_raises: Classical.choice, Quot.sound, propext
Props.C42_clipped: Quot.sound, propext
Props.C42_false: Classical.choice, Quot.sound, propext
Props.C42_layout: Classical.choice, Quot.sound, propext
Props.C42_spread_partial: Classical.choice, Quot.sound, propext
Props.C43_deterministic: Classical.choice, Quot.sound, propext
Props.C43_transparent: Classical.choice, Quot.sound, propext
Props.C43_which: Classical.choice, Quot.sound, propext
Props.C44_completed: Classical.choice, Quot.sound, propext
Props.C44_values: Classical.choice, Quot.sound, propext
Props.C45_false: Classical.choice, Quot.sound, propext
Props.C45_set_avg_partial: Classical.choice, Quot.sound, propext
Props.C46_disabled: Classical.choice, Quot.sound, propext
Props.C46_no_overwrite: Classical.choice, Quot.sound, propext
Props.C46_only_pickles: Classical.choice, Quot.sound, propext
Props.C47_injective: Classical.choice, Quot.sound, propext
Props.C47_no_collision: Classical.choice, Quot.sound, propext
Props.C47_paths: Classical.choice, Quot.sound, propext
Props.C48_large: Classical.choice, Quot.sound, propext
Props.C48_literal: Classical.choice, Quot.sound, propext
Props.C48_no_base: Classical.choice, Quot.sound, propext
Props.C48_no_spaces: Classical.choice, Quot.sound, propext
Props.C48_small: Classical.choice, Quot.sound, propext
Props.C48_zero_dim: Classical.choice, Quot.sound, propext
Props.C49_directory: Quot.sound, propext
Props.C49_file_accepted: Classical.choice, Quot.sound, propext
Props.C49_outside: Quot.sound, propext
Props.C49_succeeds: Quot.sound, propext
Props.C50_crash_no_wrong_value: Classical.choice, Quot.sound, propext
Props.C50_scratch_after_crash: Classical.choice, Quot.sound, propext
Props.C51_damaged: Classical.choice, Quot.sound, propext
Props.C51_false: Classical.choice, Quot.sound, propext
Props.C51_recovers_partial: Classical.choice, Quot.sound, propext
Props.C52_constructor_partial: Classical.choice, Quot.sound, propext
Props.C52_false: Classical.choice, Quot.sound, propext
Props.C52_ignored: Classical.choice, Quot.sound, propext
Props.C53_assertion: Classical.choice, Quot.sound, propext
Props.C53_false_prob_iou: Classical.choice, Quot.sound, propext
Props.C53_iou: Classical.choice, Quot.sound, propext
Props.C54_false: Quot.sound, propext
Props.C54_pairs_partial: Quot.sound, propext
Props.C55_explicit: Classical.choice, Quot.sound, propext
Props.C55_guess: Classical.choice, Quot.sound, propext
Props.C56_kept: Classical.choice, Quot.sound, propext
Props.C56_rejected: Quot.sound, propext
Props.C56_stored: Quot.sound, propext
Props.C57_documented: Classical.choice, Quot.sound, propext
Props.C57_foreign: Classical.choice, Quot.sound, propext
Props.C57_idempotent: Classical.choice, Quot.sound, propext
Props.C57_missing: Classical.choice, Quot.sound, propext
Props.C57_parse: Classical.choice, Quot.sound, propext
Props.C57_present: Classical.choice, Quot.sound, propext
Props.C57_print: Classical.choice, Quot.sound, propext
Props.C57_user: Classical.choice, Quot.sound, propext
Props.C58_injective: Classical.choice, Quot.sound, propext
Props.C58_round_trip: Classical.choice, Quot.sound, propext
Props.C59_exists: Classical.choice, Quot.sound, propext
Props.C59_failing: Classical.choice, Quot.sound, propext
Props.C59_not_matrix: Classical.choice, Quot.sound, propext
Props.C59_written: Classical.choice, Quot.sound, propext
Props.C60_attached: Classical.choice, Quot.sound, propext
Props.C60_disjoint: Classical.choice, Quot.sound, propext
Props.C60_false_joined: Classical.choice, Quot.sound, propext
Props.C60_no_number: Classical.choice, Quot.sound, propext
Props.C60_number: Classical.choice, Quot.sound, propext
Props.C60_range: Classical.choice, Quot.sound, propext
Props.C60_sorted: Classical.choice, Quot.sound, propext
Props.C60_succeeds: Classical.choice, Quot.sound, propext
Props.C61_variance_spread: Classical.choice, Quot.sound, propext
Props.C62_average_partial: Classical.choice, Quot.sound, propext
Props.C62_errors_partial: Classical.choice, Quot.sound, propext
Props.C62_false: Classical.choice, Quot.sound, propext
Props.C63_counts_false: Classical.choice, Quot.sound, propext
Props.C63_false: Classical.choice, Quot.sound, propext
Props.C63_multi_defined_partial: Classical.choice, Quot.sound, propext
Props.C63_multi_equals_single_partial: Classical.choice, Quot.sound, propext
Props.C64_attribute_changed: Classical.choice, Quot.sound, propext
Props.C64_false: Classical.choice, Quot.sound, propext
Props.C64_retry_partial: Classical.choice, Quot.sound, propext
Props.C65_distinct_partial: Classical.choice, Quot.sound, propext
Props.C65_false: Classical.choice, Quot.sound, propext
Props.C65_printed_alike: Classical.choice, Quot.sound, propext
Props.C66_isolated_partial: Classical.choice, Quot.sound, propext
Props.C66_leftover: Classical.choice, Quot.sound, propext
Props.C66_same_directory_false: Classical.choice, Quot.sound, propext
Props.C66_short_file_false: Classical.choice, Quot.sound, propext
Props.C67_default_partial: Classical.choice, Quot.sound, propext
Props.C67_false: Classical.choice, Quot.sound, propext
Props.C67_ignored: Classical.choice, Quot.sound, propext
Props.C67_missing: Classical.choice, Quot.sound, propext
Props.C68_false: propext
Props.C68_false_early: propext
Props.C68_units_partial: Classical.choice, Quot.sound, propext
Props.C69_absent: Classical.choice, Quot.sound, propext
Props.C69_coordinates: Classical.choice, Quot.sound, propext
Props.C69_data: Classical.choice, Quot.sound, propext
Props.C69_time_dimension: Classical.choice, Quot.sound, propext
Props.C69_unique: Classical.choice, Quot.sound, propext
Props.C70_numbers_false: Classical.choice, Quot.sound, propext
Props.C70_partial: Quot.sound, propext
Props.C71_cdf: Classical.choice, Quot.sound, propext
Props.C71_negative_shift_false: Classical.choice, Quot.sound, propext
Props.C71_partial: Classical.choice, Quot.sound, propext
Props.C71_truncated: Quot.sound, propext
Props.C72_crps: Classical.choice, Quot.sound, propext
Props.C72_crps_exact: Classical.choice, Quot.sound, propext
Props.C72_mean: Classical.choice, Quot.sound, propext
Props.C72_mean_exact: Classical.choice, Quot.sound, propext
Props.C72_variance: Classical.choice, Quot.sound, propext
Props.C73_above_one_false: Classical.choice, Quot.sound, propext
Props.C73_accuracy_partial: Classical.choice, Quot.sound, propext
Props.C73_bounds_partial: Classical.choice, Quot.sound, propext
Props.C73_errors: Classical.choice, Quot.sound, propext
Props.C73_half_false: Classical.choice, Quot.sound, propext
Props.C73_negative_false: Classical.choice, Quot.sound, propext
Props.C73_nonneg_partial: Classical.choice, Quot.sound, propext
Props.C74_defined: Classical.choice, Quot.sound, propext
Props.C74_unbiased: Classical.choice, Quot.sound, propext
Props.C74_variance: Classical.choice, Quot.sound, propext
Props.C75_axis_spelling: Classical.choice, Quot.sound, propext
Props.C75_axis_type: Classical.choice, Quot.sound, propext
Props.C75_brier: Classical.choice, Quot.sound, propext
Props.C75_brier_boot: Classical.choice, Quot.sound, propext
Props.C75_brier_decomp: Classical.choice, Quot.sound, propext
Props.C75_brier_decomp_boot: Classical.choice, Quot.sound, propext
Props.C75_brier_decomp_values: Classical.choice, Quot.sound, propext
Props.C75_construct_det: Quot.sound, propext
Props.C75_construct_ens: Classical.choice, Quot.sound, propext
Props.C75_corr: Classical.choice, Quot.sound, propext
Props.C75_corr_boot: Classical.choice, Quot.sound, propext
Props.C75_det_metrics: Classical.choice, Quot.sound, propext
Props.C75_det_metrics_boot: Classical.choice, Quot.sound, propext
Props.C75_det_saved: Classical.choice, Quot.sound, propext
Props.C75_ens_brier: Classical.choice, Quot.sound, propext
Props.C75_ens_cdf: Classical.choice, Quot.sound, propext
Props.C75_ens_crps: Classical.choice, Quot.sound, propext
Props.C75_ens_errors: Classical.choice, Quot.sound, propext
Props.C75_ens_rank: Classical.choice, Quot.sound, propext
Props.C75_ens_spread: Classical.choice, Quot.sound, propext
Props.C75_errors: Classical.choice, Quot.sound, propext
Props.C75_errors_boot: Classical.choice, Quot.sound, propext
Props.C75_iou_determ: Classical.choice, Quot.sound, propext
Props.C75_iou_determ_all: Classical.choice, Quot.sound, propext
Props.C75_iou_prob: Classical.choice, Quot.sound, propext
Props.C75_iou_prob_all: Classical.choice, Quot.sound, propext
Props.C75_negative_samples: Classical.choice, Quot.sound, propext
Props.C75_over: Classical.choice, Quot.sound, propext
Props.C75_reliability_all: Classical.choice, Quot.sound, propext
Props.C75_reliability_boot: Classical.choice, Quot.sound, propext
Props.C75_reliability_kept: Classical.choice, Quot.sound, propext
Props.C75_roc: Classical.choice, Quot.sound, propext
Props.C75_saved: Classical.choice, Quot.sound, propext
Props.C75_sharpness: Classical.choice, Quot.sound, propext
Props.C75_spread_skill: Classical.choice, Quot.sound, propext
Props.C75_spread_skill_boot: Classical.choice, Quot.sound, propext
Props.C76_gamma_crps: Classical.choice, Quot.sound, propext
Props.C76_gamma_errors: Classical.choice, Quot.sound, propext
Props.C76_gamma_probabilities: Classical.choice, Quot.sound, propext
Props.C76_gauss_crps: Classical.choice, Quot.sound, propext
Props.C76_gauss_crps_truncated: Classical.choice, Quot.sound, propext
Props.C76_gauss_errors: Classical.choice, Quot.sound, propext
Props.C76_gauss_probabilities: Classical.choice, Quot.sound, propext
Props.C76_hurdle_crps: Classical.choice, Quot.sound, propext
Props.C76_hurdle_errors: Classical.choice, Quot.sound, propext
Props.C76_hurdle_moments: Classical.choice, Quot.sound, propext
Props.C76_hurdle_no_sample: Classical.choice, Quot.sound, propext
Props.C76_hurdle_probabilities: Classical.choice, Quot.sound, propext
Props.C76_pit: Classical.choice, Quot.sound, propext
Props.C76_prob_to_ens: Classical.choice, Quot.sound, propext
Props.C76_rank_hist: Classical.choice, Quot.sound, propext
Props.C76_spread: Classical.choice, Quot.sound, propext
Props.C77_false: Classical.choice, Quot.sound, propext
Props.C77_partial: Classical.choice, Quot.sound, propext
Props.C77_silent_false: Classical.choice, Quot.sound, propext
Props.C78_alone: Classical.choice, Quot.sound, propext
Props.C78_false: Classical.choice, Quot.sound, propext
Props.C78_outcomes_partial: Classical.choice, Quot.sound, propext
Props.C78_read_false: Classical.choice, Quot.sound, propext
Props.C78_values_partial: Classical.choice, Quot.sound, propext
Props.C79_lengths: Classical.choice, Quot.sound, propext
Props.C79_missing: Classical.choice, Quot.sound, propext
Props.C79_number: Classical.choice, Quot.sound, propext
Props.C79_unreadable: propext
Props.C79_values: Classical.choice, Quot.sound, propext
Props.C80_brier: Classical.choice, Quot.sound, propext
Props.C80_brier_zero: Classical.choice, Quot.sound, propext
Props.C80_errors: Classical.choice, Quot.sound, propext
Props.C80_monotone: Classical.choice, Quot.sound, propext
Props.C80_probability: Classical.choice, Quot.sound, propext
Props.C81_construct_det: Quot.sound, propext
Props.C81_construct_ens: Quot.sound, propext
Props.C81_corr: Classical.choice, Quot.sound, propext
Props.C81_det: Classical.choice, Quot.sound, propext
Props.C81_ens: Classical.choice, Quot.sound, propext
Props.C81_iou: Classical.choice, Quot.sound, propext
Props.C81_mean: Classical.choice, Quot.sound, propext
Props.C81_rank: Classical.choice, Quot.sound, propext
Props.C81_ss: Classical.choice, Quot.sound, propext
Props.C81_threshold: Classical.choice, Quot.sound, propext
Props.C82_fresh: Classical.choice, Quot.sound, propext
Props.C82_last: Classical.choice, Quot.sound, propext
Props.C82_no_boot: Classical.choice, Quot.sound, propext
Props.C82_order: Classical.choice, Quot.sound, propext
Props.C82_saved: Classical.choice, Quot.sound, propext
Props.C82_settled: Quot.sound, propext
Props.C83_collapse: Quot.sound, propext
Props.C83_crps: Classical.choice, Quot.sound, propext
Props.C83_history: Classical.choice, Quot.sound, propext
Props.C83_kde: Quot.sound, propext
Props.C84_brier: Classical.choice, Quot.sound, propext
Props.C84_corr: Classical.choice, Quot.sound, propext
Props.C84_crps: Classical.choice, Quot.sound, propext
Props.C84_crps_reorder: Classical.choice, Quot.sound, propext
Props.C84_crps_select: Classical.choice, Quot.sound, propext
Props.C84_det_reorder: Classical.choice, Quot.sound, propext
Props.C84_det_select: Classical.choice, Quot.sound, propext
Props.C84_errors: Classical.choice, Quot.sound, propext
Props.C85_accepted: Classical.choice, Quot.sound, propext
Props.C85_boot_partial: Classical.choice, Quot.sound, propext
Props.C85_brier: Classical.choice, Quot.sound, propext
Props.C85_corr: Classical.choice, Quot.sound, propext
Props.C85_errors: Classical.choice, Quot.sound, propext
Props.C85_false: Classical.choice, Quot.sound, propext
Props.C86_data: Classical.choice, Quot.sound, propext
Props.C86_data_false: Classical.choice, Quot.sound, propext
Props.C86_det: Classical.choice, Quot.sound, propext
Props.C86_ens_partial: Classical.choice, Quot.sound, propext
Props.C86_false: Classical.choice, Quot.sound, propext
Props.C86_gamma_partial: Classical.choice, Quot.sound, propext
Props.C86_gaussian_partial: Classical.choice, Quot.sound, propext
Props.C86_hurdle_partial: Classical.choice, Quot.sound, propext
Props.C86_unsaved: Classical.choice, Quot.sound, propext
Props.C87_default: Classical.choice, Quot.sound, propext
Props.C87_false: Classical.choice, Quot.sound, propext
Props.C87_final_false: Classical.choice, Quot.sound, propext
Props.C87_none: Classical.choice, Quot.sound, propext
Props.C87_partial: Classical.choice, Quot.sound, propext
Props.C87_unsaved: Classical.choice, Quot.sound, propext
Props.C88_bounds: Classical.choice, Quot.sound, propext
Props.C88_crps: Classical.choice, Quot.sound, propext
Props.C88_crps_brier: Classical.choice, Quot.sound, propext
Props.C88_single: Classical.choice, Quot.sound, propext
Props.C89_brier: Classical.choice, Quot.sound, propext
Props.C89_errors: Classical.choice, Quot.sound, propext
Props.C89_float64: Classical.choice, Quot.sound, propext
Props.C89_million: Classical.choice, Quot.sound, propext
Props.C89_rmse: Classical.choice, Quot.sound, propext
Props.C90_area: Classical.choice, Quot.sound, propext
Props.C90_missing: Quot.sound, propext
Props.C90_one_class: Classical.choice, Quot.sound, propext
Props.C90_opposite: Classical.choice, Quot.sound, propext
Props.C90_order: Classical.choice, Quot.sound, propext
Props.C90_over_below: Classical.choice, Quot.sound, propext
Props.C90_range: Classical.choice, Quot.sound, propext
Props.C90_roc: Classical.choice, Quot.sound, propext
Props.C90_roc_area: Classical.choice, Quot.sound, propext
Props.C90_transform: Classical.choice, Quot.sound, propext
Props.C91_average: Classical.choice, Quot.sound, propext
Props.C91_boot_arr: Classical.choice, Quot.sound, propext
Props.C91_errors: Classical.choice, Quot.sound, propext
Props.C92_corr_partial: Classical.choice, Quot.sound, propext
Props.C92_curve_false: Classical.choice, Quot.sound, propext
Props.C92_curve_partial: Classical.choice, Quot.sound, propext
Props.C92_false: Classical.choice, Quot.sound, propext
Props.C93_determ: Classical.choice, Quot.sound, propext
Props.C93_ensemble: Classical.choice, Quot.sound, propext
Props.C93_gamma: Classical.choice, Quot.sound, propext
Props.C93_gauss: Classical.choice, Quot.sound, propext
Props.C93_hurdle: Classical.choice, Quot.sound, propext
Props.C93_members: Classical.choice, Quot.sound, propext
Props.C94_ensemble: Classical.choice, Quot.sound, propext
Props.C94_iou: Classical.choice, Quot.sound, propext
Props.C94_iou_determ: Classical.choice, Quot.sound, propext
Props.C94_iou_larger: Classical.choice, Quot.sound, propext
Props.C94_prob: Classical.choice, Quot.sound, propext
Props.C95_lead_times: Classical.choice, Quot.sound, propext
Props.C95_needs: Classical.choice, Quot.sound, propext
Props.C95_no_file: Quot.sound, propext
Props.C95_no_lead_times: Quot.sound, propext
Props.C95_open: Classical.choice, Quot.sound, propext
Props.C95_order: Classical.choice, Quot.sound, propext
Props.C95_stations: Classical.choice, Quot.sound, propext
Props.C95_times: Classical.choice, Quot.sound, propext
Props.C96_false: Classical.choice, Quot.sound, propext
Props.C96_false_names: Classical.choice, Quot.sound, propext
Props.C96_kept_partial: Classical.choice, Quot.sound, propext
Props.C96_same: Classical.choice, Quot.sound, propext
Props.C97_false: Classical.choice, Quot.sound, propext
Props.C97_values_partial: Classical.choice, Quot.sound, propext
Props.C98_brier: Classical.choice, Quot.sound, propext
Props.C98_ens: Classical.choice, Quot.sound, propext
Props.C98_gamma: Classical.choice, Quot.sound, propext
Props.C98_gauss: Classical.choice, Quot.sound, propext
Props.C98_proper: Classical.choice, Quot.sound, propext
Props.C99_errors: Classical.choice, Quot.sound, propext
Props.C99_flat: Classical.choice, Quot.sound, propext
Props.C99_probability: Classical.choice, Quot.sound, propext
Props.C99_spread_skill: Classical.choice, Quot.sound, propext
Props.Phi_half: Classical.choice, Quot.sound, propext
Props.Phi_pos: Classical.choice, Quot.sound, propext
Props.abErrorOf_sc: Classical.choice, Quot.sound, propext
Props.abError_unit: Classical.choice, Quot.sound, propext
Props.aboveNormal_law: Classical.choice, Quot.sound, propext
Props.aboveNormal_memLp: Classical.choice, Quot.sound, propext
Props.aboveNormal_ne: Classical.choice, Quot.sound, propext
Props.above_zero: Classical.choice, Quot.sound, propext
Props.above_zero_ae: Classical.choice, Quot.sound, propext
Props.abs_neg_ext: Quot.sound, propext
Props.aim_plain: Classical.choice, Quot.sound, propext
Props.alike_check: Quot.sound, propext
Props.alike_metric: Classical.choice, Quot.sound, propext
Props.allIdx_days: Quot.sound, propext
Props.allIn_reaggregates: Classical.choice, Quot.sound, propext
Props.allNoise_le: Classical.choice, Quot.sound, propext
Props.allPairs_comb: Classical.choice, Quot.sound, propext
Props.allPairs_le: Classical.choice, Quot.sound, propext
Props.allPairs_nonneg: Classical.choice, Quot.sound, propext
Props.allPairs_swap: Classical.choice, Quot.sound, propext
Props.analogFile_decodable: Classical.choice, Quot.sound, propext
Props.analogFile_opens: Classical.choice, Quot.sound, propext
Props.answered: Classical.choice, Quot.sound, propext
Props.answered_file: Classical.choice, Quot.sound, propext
Props.apart_plain: Classical.choice, Quot.sound, propext
Props.applyDefaults_missing: Classical.choice, Quot.sound, propext
Props.applyDefaults_other: Classical.choice, Quot.sound, propext
Props.applyDefaults_user: Classical.choice, Quot.sound, propext
Props.area_given: Classical.choice, Quot.sound, propext
Props.args_ok: Classical.choice, Quot.sound, propext
Props.arrPickle_ok: Classical.choice, Quot.sound, propext
Props.asNum_scNum: Quot.sound, propext
Props.asTuple_idem: propext
Props.asTuple_ne: propext
Props.atom_both: Classical.choice, Quot.sound, propext
Props.autocov_formula: Classical.choice, Quot.sound, propext
Props.autocov_scale: Quot.sound, propext
Props.averageR_near: Classical.choice, Quot.sound, propext
Props.averageR_unit: Classical.choice, Quot.sound, propext
Props.average_fault: Classical.choice, Quot.sound, propext
Props.avg_copies: Classical.choice, Quot.sound, propext
Props.avg_fault: Classical.choice, Quot.sound, propext
Props.avg_happened: Classical.choice, Quot.sound, propext
Props.avg_happened_cell: Classical.choice, Quot.sound, propext
Props.avg_le: Classical.choice, Quot.sound, propext
Props.avg_lt: Classical.choice, Quot.sound, propext
Props.avg_lt': Classical.choice, Quot.sound, propext
Props.avg_minus: Classical.choice, Quot.sound, propext
Props.avg_mono': Classical.choice, Quot.sound, propext
Props.avg_nonneg': Classical.choice, Quot.sound, propext
Props.avg_result: Classical.choice, Quot.sound, propext
Props.avg_sq_le: Classical.choice, Quot.sound, propext
Props.avg_votes_cell: Classical.choice, Quot.sound, propext
Props.avg_zero: Classical.choice, Quot.sound, propext
Props.avg_zero_iff: Classical.choice, Quot.sound, propext
Props.axisArg_ready: none
Props.axisFault_of_bad: Classical.choice, Quot.sound, propext
Props.balanced_check: Quot.sound, propext
Props.balanced_gap: Classical.choice, Quot.sound, propext
Props.balanced_indep: Classical.choice, Quot.sound, propext
Props.balanced_mean: Classical.choice, Quot.sound, propext
Props.balanced_memLp: Classical.choice, Quot.sound, propext
Props.balanced_metric: Classical.choice, Quot.sound, propext
Props.balanced_same: Classical.choice, Quot.sound, propext
Props.balanced_var: Classical.choice, Quot.sound, propext
Props.baseRate_perm: Quot.sound, propext
Props.below_zero: Classical.choice, Quot.sound, propext
Props.below_zero_pos: Classical.choice, Quot.sound, propext
Props.beyondProb_unit: Classical.choice, Quot.sound, propext
Props.binMates_le: Classical.choice, Quot.sound, propext
Props.binMates_pos: Classical.choice, Quot.sound, propext
Props.binMates_self: Classical.choice, Quot.sound, propext
Props.binMean_nonneg: Classical.choice, Quot.sound, propext
Props.binNoise_le: Classical.choice, Quot.sound, propext
Props.binNoise_zero: Classical.choice, Quot.sound, propext
Props.binWidth_nonneg: Classical.choice, Quot.sound, propext
Props.binarize_event: Classical.choice, Quot.sound, propext
Props.binarize_events: Classical.choice, Quot.sound, propext
Props.binarize_spec: Classical.choice, Quot.sound, propext
Props.binarize_unit: Classical.choice, Quot.sound, propext
Props.bind_ok: Quot.sound, propext
Props.bins_votes: Classical.choice, Quot.sound, propext
Props.blind_corr: Classical.choice, Quot.sound, propext
Props.blind_cov: Classical.choice, Quot.sound, propext
Props.blind_recorded: Classical.choice, Quot.sound, propext
Props.body_indep: Classical.choice, Quot.sound, propext
Props.boolStr_clean: propext
Props.bootOrAvgP_sim: Classical.choice, Quot.sound, propext
Props.bootOrAvg_none: Classical.choice, Quot.sound, propext
Props.bootOrAvg_some: Classical.choice, Quot.sound, propext
Props.bootVec_middle: Classical.choice, Quot.sound, propext
Props.boot_at: Classical.choice, Quot.sound, propext
Props.boot_middle: Classical.choice, Quot.sound, propext
Props.boot_result: Classical.choice, Quot.sound, propext
Props.both_sub: Quot.sound, propext
Props.brierElemR_unit: Classical.choice, Quot.sound, propext
Props.brier_body: Classical.choice, Quot.sound, propext
Props.brier_mean: Classical.choice, Quot.sound, propext
Props.brier_random: Classical.choice, Quot.sound, propext
Props.brier_rowsAt: Classical.choice, Quot.sound, propext
Props.brier_values: Classical.choice, Quot.sound, propext
Props.call_stored: Classical.choice, Quot.sound, propext
Props.case_censored: Classical.choice, Quot.sound, propext
Props.cdfAll_run: Classical.choice, Quot.sound, propext
Props.cdfBelow_unit: Quot.sound, propext
Props.cdfBody_bad: Classical.choice, Quot.sound, propext
Props.cdfBody_unit: Classical.choice, Quot.sound, propext
Props.cdfGeneric_workers: Classical.choice, Quot.sound, propext
Props.cdfR_votes: Classical.choice, Quot.sound, propext
Props.cdf_fails: Classical.choice, Quot.sound, propext
Props.cdf_grid: Classical.choice, Quot.sound, propext
Props.cdf_result: Classical.choice, Quot.sound, propext
Props.cellsOf_short: Classical.choice, Quot.sound, propext
Props.cellsOf_whole: Quot.sound, propext
Props.censored_law: Classical.choice, Quot.sound, propext
Props.censored_moments: Classical.choice, Quot.sound, propext
Props.cfVar_ok_iff: Classical.choice, Quot.sound, propext
Props.chanceE_built: Classical.choice, Quot.sound, propext
Props.chanceG_built: Classical.choice, Quot.sound, propext
Props.chance_built: Classical.choice, Quot.sound, propext
Props.chance_rank: Classical.choice, Quot.sound, propext
Props.choice_zip: Quot.sound, propext
Props.className_code: propext
Props.className_len: Classical.choice, Quot.sound, propext
Props.close8: Classical.choice, Quot.sound, propext
Props.cls_inj: Classical.choice, Quot.sound, propext
Props.cmpThr_grown: Classical.choice, Quot.sound, propext
Props.cmpThr_repeats: Classical.choice, Quot.sound, propext
Props.cmpThr_spec: Classical.choice, Quot.sound, propext
Props.code_eq: propext
Props.codev_map: Quot.sound, propext
Props.collapsed_check: Quot.sound, propext
Props.combineAt_some: Classical.choice, Quot.sound, propext
Props.complete_zip: Classical.choice, Quot.sound, propext
Props.construct_axis: Quot.sound, propext
Props.construct_common: Classical.choice, Quot.sound, propext
Props.construct_has: Quot.sound, propext
Props.construct_parts: Quot.sound, propext
Props.construct_prob: Quot.sound, propext
Props.core_det: Quot.sound, propext
Props.core_ens: Quot.sound, propext
Props.cornersOf_last: Classical.choice, Quot.sound, propext
Props.cornersOf_mono: Classical.choice, Quot.sound, propext
Props.cornersOf_two: Classical.choice, Quot.sound, propext
Props.corr_congr: Classical.choice, Quot.sound, propext
Props.corr_of_averages: Classical.choice, Quot.sound, propext
Props.corr_unit: Classical.choice, Quot.sound, propext
Props.countGe_map: Quot.sound, propext
Props.countP_lt: Classical.choice, Quot.sound, propext
Props.countTrue_map: Classical.choice, Quot.sound, propext
Props.crashFS_reach: Classical.choice, Quot.sound, propext
Props.cross_given: Classical.choice, Quot.sound, propext
Props.crps_metric: Classical.choice, Quot.sound, propext
Props.crps_share: Classical.choice, Quot.sound, propext
Props.curve_brier: Classical.choice, Quot.sound, propext
Props.curve_slice: Classical.choice, Quot.sound, propext
Props.cutGain_pos: Classical.choice, Quot.sound, propext
Props.dayArr_recorded: Classical.choice, Quot.sound, propext
Props.dayGauss0_made: Classical.choice, Quot.sound, propext
Props.dayGauss0_says: Classical.choice, Quot.sound, propext
Props.dayGauss_archive: Classical.choice, Quot.sound, propext
Props.dayGauss_says: Classical.choice, Quot.sound, propext
Props.dayPair_days: Classical.choice, Quot.sound, propext
Props.dayPair_iff: Classical.choice, Quot.sound, propext
Props.dayProb_strict: Classical.choice, Quot.sound, propext
Props.day_above: Classical.choice, Quot.sound, propext
Props.day_below: Classical.choice, Quot.sound, propext
Props.day_both: Classical.choice, Quot.sound, propext
Props.day_event: Classical.choice, Quot.sound, propext
Props.day_from: Classical.choice, Quot.sound, propext
Props.day_integral: Classical.choice, Quot.sound, propext
Props.day_known: Classical.choice, Quot.sound, propext
Props.day_law: Classical.choice, Quot.sound, propext
Props.day_preserving: Classical.choice, Quot.sound, propext
Props.day_prob: Classical.choice, Quot.sound, propext
Props.day_quarter: Classical.choice, Quot.sound, propext
Props.day_right: Classical.choice, Quot.sound, propext
Props.days_length: propext
Props.days_repeat: Classical.choice, Quot.sound, propext
Props.days_slice: Classical.choice, Quot.sound, propext
Props.decomp_random: Classical.choice, Quot.sound, propext
Props.decomp_result: Classical.choice, Quot.sound, propext
Props.decomp_values: Classical.choice, Quot.sound, propext
Props.demoInc_ok: Classical.choice, Quot.sound, propext
Props.demo_hurdle: Classical.choice, Quot.sound, propext
Props.detUnit_det: Quot.sound, propext
Props.det_metrics: Classical.choice, Quot.sound, propext
Props.det_sim: Classical.choice, Quot.sound, propext
Props.det_values: Classical.choice, Quot.sound, propext
Props.dictOK_iff: Quot.sound, propext
Props.diff_arr: Classical.choice, Quot.sound, propext
Props.diffs_nonneg: Classical.choice, Quot.sound, propext
Props.dir_runEnv: Classical.choice, Quot.sound, propext
Props.discrimination_flat: Quot.sound, propext
Props.discrimination_opposite: Classical.choice, Quot.sound, propext
Props.distCfg_free: Classical.choice, Quot.sound, propext
Props.distScore_free: Classical.choice, Quot.sound, propext
Props.divFl_neg: Classical.choice, Quot.sound, propext
Props.divFl_scale: Classical.choice, Quot.sound, propext
Props.div_mulC: Classical.choice, Quot.sound, propext
Props.dmStat_cases: Classical.choice, Quot.sound, propext
Props.dmStat_neg: Classical.choice, Quot.sound, propext
Props.dmStat_scale: Classical.choice, Quot.sound, propext
Props.dmVariance_estimate: Classical.choice, Quot.sound, propext
Props.dmVariance_scale: Classical.choice, Quot.sound, propext
Props.dm_pvalue: Classical.choice, Quot.sound, propext
Props.dm_result: Quot.sound, propext
Props.drawnAt_independent: Classical.choice, Quot.sound, propext
Props.drawnAt_law: Classical.choice, Quot.sound, propext
Props.drawnAt_meas: Classical.choice, Quot.sound, propext
Props.drawnAt_observed: Classical.choice, Quot.sound, propext
Props.drawnE_built: Classical.choice, Quot.sound, propext
Props.drawnX_moments: Classical.choice, Quot.sound, propext
Props.drawnY_moments: Classical.choice, Quot.sound, propext
Props.drawn_case: Classical.choice, Quot.sound, propext
Props.dropAxes_none: Quot.sound, propext
Props.dvar_bounds: Classical.choice, Quot.sound, propext
Props.dvar_variation: Classical.choice, Quot.sound, propext
Props.ensBrierR_ok: Classical.choice, Quot.sound, propext
Props.ensBrier_spec: Classical.choice, Quot.sound, propext
Props.ensCdfR_id: Classical.choice, Quot.sound, propext
Props.ensCdf_below: Classical.choice, Quot.sound, propext
Props.ensDoubled_same: Classical.choice, Quot.sound, propext
Props.ensMixed_shuffled: Classical.choice, Quot.sound, propext
Props.ensProb_avg: Classical.choice, Quot.sound, propext
Props.ensProb_votes: Classical.choice, Quot.sound, propext
Props.ensR_axes: Classical.choice, Quot.sound, propext
Props.ensR_built: Classical.choice, Quot.sound, propext
Props.ensUnit_det: Quot.sound, propext
Props.ensUnit_rel: Quot.sound, propext
Props.ens_brier_value: Classical.choice, Quot.sound, propext
Props.ens_crps_values: Classical.choice, Quot.sound, propext
Props.ens_prod: Classical.choice, Quot.sound, propext
Props.ens_runs: Classical.choice, Quot.sound, propext
Props.errorOf_sc: Classical.choice, Quot.sound, propext
Props.error_bodies: Classical.choice, Quot.sound, propext
Props.error_unit: Classical.choice, Quot.sound, propext
Props.errors_spec: Classical.choice, Quot.sound, propext
Props.event_beyond: Classical.choice, Quot.sound, propext
Props.event_mean: Classical.choice, Quot.sound, propext
Props.events_unique: Classical.choice, Quot.sound, propext
Props.exReal_ok: Classical.choice, Quot.sound, propext
Props.exists_argsort: Classical.choice, Quot.sound, propext
Props.expLaw_hurdle: Classical.choice, Quot.sound, propext
Props.expLaw_law: Classical.choice, Quot.sound, propext
Props.expLaw_shifted: Classical.choice, Quot.sound, propext
Props.expected_errors: Classical.choice, Quot.sound, propext
Props.extremes: Quot.sound, propext
Props.fDeterm_det: Classical.choice, Quot.sound, propext
Props.fDeterm_ens: Classical.choice, Quot.sound, propext
Props.fiberIdx_everything: Classical.choice, Quot.sound, propext
Props.fiberIdx_ne: Classical.choice, Quot.sound, propext
Props.fiberIdx_ne': Classical.choice, Quot.sound, propext
Props.fiberIdx_none: Classical.choice, Quot.sound, propext
Props.fiberIdx_range: Classical.choice, Quot.sound, propext
Props.fiber_none: Classical.choice, Quot.sound, propext
Props.fiber_same: Quot.sound, propext
Props.fillCoords_other: Classical.choice, Quot.sound, propext
Props.fillPlaces_cases: Classical.choice, Quot.sound, propext
Props.filter_mem_length: Quot.sound, propext
Props.firstDays_ne: Classical.choice, Quot.sound, propext
Props.fixedE_built: Classical.choice, Quot.sound, propext
Props.fixedE_built': Classical.choice, Quot.sound, propext
Props.flatMap_sorted: Classical.choice, Quot.sound, propext
Props.flat_of_below: Classical.choice, Quot.sound, propext
Props.float64_edge2: Classical.choice, Quot.sound, propext
Props.float64_edge3: Classical.choice, Quot.sound, propext
Props.float64_rnd: Classical.choice, Quot.sound, propext
Props.float64_same_bin: Classical.choice, Quot.sound, propext
Props.float64_step: Classical.choice, Quot.sound, propext
Props.float64_three: Classical.choice, Quot.sound, propext
Props.float64_two: Classical.choice, Quot.sound, propext
Props.fnsPit_uni: Classical.choice, Quot.sound, propext
Props.fold_max: Quot.sound, propext
Props.fold_min: Quot.sound, propext
Props.foldl_fsum: Quot.sound, propext
Props.foldl_max_ge: Quot.sound, propext
Props.foldl_max_spec: Quot.sound, propext
Props.foldl_min_le: Quot.sound, propext
Props.foldl_min_spec: Quot.sound, propext
Props.formula_none: Quot.sound, propext
Props.frac_slice: Classical.choice, Quot.sound, propext
Props.frac_some: Classical.choice, Quot.sound, propext
Props.fractionLe_avg: Classical.choice, Quot.sound, propext
Props.fractionLe_const: Classical.choice, Quot.sound, propext
Props.fractionLe_mono: Classical.choice, Quot.sound, propext
Props.fractionLe_range: Classical.choice, Quot.sound, propext
Props.fraction_ecdf: Classical.choice, Quot.sound, propext
Props.fresh_iff: Classical.choice, Quot.sound, propext
Props.fsum_map_some: Quot.sound, propext
Props.fsum_scale: Quot.sound, propext
Props.funcCorrBoot_spec: Classical.choice, Quot.sound, propext
Props.funcCorr_length: Quot.sound, propext
Props.gain_mean: Classical.choice, Quot.sound, propext
Props.gammaCdf_law: Classical.choice, Quot.sound, propext
Props.gammaCdf_one: Classical.choice, Quot.sound, propext
Props.gammaCrpsElem_none: Quot.sound, propext
Props.gammaCrpsElem_real: Classical.choice, Quot.sound, propext
Props.gamma_crps_values: Classical.choice, Quot.sound, propext
Props.gamma_error_pairs: Classical.choice, Quot.sound, propext
Props.gamma_moments: Classical.choice, Quot.sound, propext
Props.gamma_ready: Classical.choice, Quot.sound, propext
Props.gap_plain: Classical.choice, Quot.sound, propext
Props.gaussCdf_law: Classical.choice, Quot.sound, propext
Props.gaussLaw_false: Classical.choice, Quot.sound, propext
Props.gaussLaw_inj: Classical.choice, Quot.sound, propext
Props.gauss_crps_values: Classical.choice, Quot.sound, propext
Props.gauss_family: Classical.choice, Quot.sound, propext
Props.gauss_moments: Classical.choice, Quot.sound, propext
Props.gauss_pit_limit: Classical.choice, Quot.sound, propext
Props.gauss_pit_values: Classical.choice, Quot.sound, propext
Props.gauss_ready: Classical.choice, Quot.sound, propext
Props.gauss_trunc_scores: Classical.choice, Quot.sound, propext
Props.get_mem_data: Classical.choice, Quot.sound, propext
Props.get_some: Classical.choice, Quot.sound, propext
Props.given_other: Classical.choice, Quot.sound, propext
Props.goodAxes_boot: Classical.choice, Quot.sound, propext
Props.group_means: Classical.choice, Quot.sound, propext
Props.grouping_le: Quot.sound, propext
Props.growth64: Classical.choice, Quot.sound, propext
Props.half: Classical.choice, Quot.sound, propext
Props.halfSum_some: Classical.choice, Quot.sound, propext
Props.half_lt: Classical.choice, Quot.sound, propext
Props.half_there: Classical.choice, Quot.sound, propext
Props.hasKey_iff: Quot.sound, propext
Props.hasPar_unique: none
Props.honest_gain: Classical.choice, Quot.sound, propext
Props.hurdleCdf_law: Classical.choice, Quot.sound, propext
Props.hurdleSum_spec: Classical.choice, Quot.sound, propext
Props.hurdle_brier_row: Classical.choice, Quot.sound, propext
Props.hurdle_case: Classical.choice, Quot.sound, propext
Props.hurdle_row: Classical.choice, Quot.sound, propext
Props.idR_accurate: Classical.choice, Quot.sound, propext
Props.idR_fine: Classical.choice, Quot.sound, propext
Props.inB_day: Classical.choice, Quot.sound, propext
Props.inUnit_generic: Quot.sound, propext
Props.indep_beyond: Classical.choice, Quot.sound, propext
Props.indep_events: Classical.choice, Quot.sound, propext
Props.indicator_bool: Classical.choice, Quot.sound, propext
Props.indicator_iff: Classical.choice, Quot.sound, propext
Props.indicator_or: Classical.choice, Quot.sound, propext
Props.indist_alike: Classical.choice, Quot.sound, propext
Props.indist_balanced: Classical.choice, Quot.sound, propext
Props.instIsProbabilityMeasureForallFinOfNatNatRealNormalPair: Classical.choice, Quot.sound, propext
Props.instIsProbabilityMeasureForallFinOfNatNatRealThreeNormal: Classical.choice, Quot.sound, propext
Props.instIsProbabilityMeasureForallFinOfNatNatRealTripleNormal: Classical.choice, Quot.sound, propext
Props.instIsProbabilityMeasureForallNatForallRealSpins: Classical.choice, Quot.sound, propext
Props.instIsProbabilityMeasureForallNatProdRealDays: Classical.choice, Quot.sound, propext
Props.instIsProbabilityMeasureForallNatRealNormalDays: Classical.choice, Quot.sound, propext
Props.instIsProbabilityMeasureForallNatRealSeqOf: Classical.choice, Quot.sound, propext
Props.instIsProbabilityMeasureProdRealDayLaw: Classical.choice, Quot.sound, propext
Props.instIsProbabilityMeasureProdRealTwoNormals: Classical.choice, Quot.sound, propext
Props.instIsProbabilityMeasureProdRealWithDraw: Classical.choice, Quot.sound, propext
Props.instIsProbabilityMeasureRealAboveNormal: Classical.choice, Quot.sound, propext
Props.instIsProbabilityMeasureRealExpLaw: Classical.choice, Quot.sound, propext
Props.instIsProbabilityMeasureRealHalfNormal: Classical.choice, Quot.sound, propext
Props.instIsProbabilityMeasureRealRestrictVolumeIcoOfNat_verif: Classical.choice, Quot.sound, propext
Props.instIsProbabilityMeasureRealSpin: Classical.choice, Quot.sound, propext
Props.instIsProbabilityMeasureRealStdNormal: Classical.choice, Quot.sound, propext
Props.integBody_world: Quot.sound, propext
Props.integProc_solo: Classical.choice, Quot.sound, propext
Props.integrableOn_pow: Classical.choice, Quot.sound, propext
Props.integrable_crossMean: Classical.choice, Quot.sound, propext
Props.integrable_noise: Classical.choice, Quot.sound, propext
Props.integrable_pairMean: Classical.choice, Quot.sound, propext
Props.integrable_signal: Classical.choice, Quot.sound, propext
Props.integrable_stdNormal: Classical.choice, Quot.sound, propext
Props.integral_above: Classical.choice, Quot.sound, propext
Props.integral_event: Classical.choice, Quot.sound, propext
Props.integrate_error_env: Classical.choice, Quot.sound, propext
Props.integrate_fresh: Classical.choice, Quot.sound, propext
Props.integrate_iff: Classical.choice, Quot.sound, propext
Props.iouDeterm_all: Classical.choice, Quot.sound, propext
Props.iou_all: Classical.choice, Quot.sound, propext
Props.iou_comm: Classical.choice, Quot.sound, propext
Props.iou_days: Classical.choice, Quot.sound, propext
Props.iou_determ_run: Classical.choice, Quot.sound, propext
Props.iou_prob_run: Classical.choice, Quot.sound, propext
Props.iou_spec: Classical.choice, Quot.sound, propext
Props.isAvg_ones: Classical.choice, Quot.sound, propext
Props.isAvg_perm: Quot.sound, propext
Props.isAvg_pool: Quot.sound, propext
Props.isAvg_present: Classical.choice, Quot.sound, propext
Props.isAvg_scale: Quot.sound, propext
Props.isAvg_some: Classical.choice, Quot.sound, propext
Props.isAvg_some': Quot.sound, propext
Props.isIou_congr: Classical.choice, Quot.sound, propext
Props.isIou_facts: Classical.choice, Quot.sound, propext
Props.isMember_value: Quot.sound, propext
Props.isPooled_pool: Classical.choice, Quot.sound, propext
Props.isResampleOf_perm: propext
Props.isSqrt_real: Classical.choice, Quot.sound, propext
Props.jobs_sound: Classical.choice, Quot.sound, propext
Props.jump_brier: Classical.choice, Quot.sound, propext
Props.jump_built: Classical.choice, Quot.sound, propext
Props.jump_near: Classical.choice, Quot.sound, propext
Props.kdeCol_eq: Quot.sound, propext
Props.kdeDensity_integral: Classical.choice, Quot.sound, propext
Props.kdeDensity_le: Classical.choice, Quot.sound, propext
Props.kdeDensity_nonneg: Classical.choice, Quot.sound, propext
Props.kdeDensity_pos: Classical.choice, Quot.sound, propext
Props.kdeLo_const: Quot.sound, propext
Props.keys_nodup: Classical.choice, Quot.sound, propext
Props.lastOr_cons: propext
Props.lastOr_nil: none
Props.leNan_total: Quot.sound, propext
Props.leNan_trans: Quot.sound, propext
Props.le_iff_LeP: Quot.sound, propext
Props.leftTree_leaves: propext
Props.leftUp_fresh: Classical.choice, Quot.sound, propext
Props.legal_of_length: Classical.choice, Quot.sound, propext
Props.lengthAlong_of: Quot.sound, propext
Props.lines_clean: Classical.choice, Quot.sound, propext
Props.linspace_getD: Classical.choice, Quot.sound, propext
Props.linspace_mono: Classical.choice, Quot.sound, propext
Props.linspace_nodup: Classical.choice, Quot.sound, propext
Props.linspace_step: Classical.choice, Quot.sound, propext
Props.listMean_expect: Classical.choice, Quot.sound, propext
Props.list_sum_range: Classical.choice, Quot.sound, propext
Props.longRun_arr: Classical.choice, Quot.sound, propext
Props.longRun_congr: Classical.choice, Quot.sound, propext
Props.longRun_errors: Classical.choice, Quot.sound, propext
Props.longRun_metric: Classical.choice, Quot.sound, propext
Props.lossDiff_some: Quot.sound, propext
Props.lossDiff_swap: Quot.sound, propext
Props.lossGaps_length: Quot.sound, propext
Props.lossGaps_sum: Classical.choice, Quot.sound, propext
Props.loss_some: Quot.sound, propext
Props.losses_some: Quot.sound, propext
Props.lt_iff_LtP: Classical.choice, Quot.sound, propext
Props.makeDirs_succeeds: propext
Props.makeDirs_trace_keeps: propext
Props.mapE_asNum: propext
Props.mapE_normAxis_error: Classical.choice, Quot.sound, propext
Props.map_some_inj: Classical.choice, Quot.sound, propext
Props.mates_metric: Classical.choice, Quot.sound, propext
Props.mates_runOps: Classical.choice, Quot.sound, propext
Props.mates_setter: Quot.sound, propext
Props.mates_step: Classical.choice, Quot.sound, propext
Props.mates_validate: Quot.sound, propext
Props.mates_votes: Classical.choice, Quot.sound, propext
Props.meanOf_num: Quot.sound, propext
Props.meanOf_one: Classical.choice, Quot.sound, propext
Props.meanOf_some: Quot.sound, propext
Props.meanX_announces: Classical.choice, Quot.sound, propext
Props.mean_error: Classical.choice, Quot.sound, propext
Props.mean_le_mean: Classical.choice, Quot.sound, propext
Props.mean_noise: Classical.choice, Quot.sound, propext
Props.mean_scale: Quot.sound, propext
Props.measurableSet_counts: Classical.choice, Quot.sound, propext
Props.measurableSet_relBin: Classical.choice, Quot.sound, propext
Props.measurable_affine: Classical.choice, Quot.sound, propext
Props.measurable_beyond: Classical.choice, Quot.sound, propext
Props.measurable_dayProb: Classical.choice, Quot.sound, propext
Props.measurable_ecdf: Classical.choice, Quot.sound, propext
Props.measurable_event: Classical.choice, Quot.sound, propext
Props.measurable_expMember: Classical.choice, Quot.sound, propext
Props.measurable_normalMember: Classical.choice, Quot.sound, propext
Props.measurable_pairMean: Classical.choice, Quot.sound, propext
Props.measurable_pick: Classical.choice, Quot.sound, propext
Props.measurable_seen: Classical.choice, Quot.sound, propext
Props.measurable_there: Classical.choice, Quot.sound, propext
Props.measurable_wins: Classical.choice, Quot.sound, propext
Props.mem_binMates: Classical.choice, Quot.sound, propext
Props.mem_mapE: propext
Props.memberLaw_gamma: Classical.choice, Quot.sound, propext
Props.memberLaw_gauss: Classical.choice, Quot.sound, propext
Props.memberPool_cut: Classical.choice, Quot.sound, propext
Props.memberPool_reorder: Classical.choice, Quot.sound, propext
Props.memberPool_select: Classical.choice, Quot.sound, propext
Props.memberScore_copies: Classical.choice, Quot.sound, propext
Props.memberScore_perm: Quot.sound, propext
Props.member_values: Classical.choice, Quot.sound, propext
Props.membersAt_length: Classical.choice, Quot.sound, propext
Props.membersAt_ne_nil: Classical.choice, Quot.sound, propext
Props.memo_integral: Classical.choice, Quot.sound, propext
Props.mergeThreshold_ok: Classical.choice, Quot.sound, propext
Props.metricProg_call: Classical.choice, Quot.sound, propext
Props.missing_fiber: Classical.choice, Quot.sound, propext
Props.momentsColR_cases: Classical.choice, Quot.sound, propext
Props.momentsCol_eq: Classical.choice, Quot.sound, propext
Props.moveLoop_error: Classical.choice, Quot.sound, propext
Props.moveLoop_ok_iff: Classical.choice, Quot.sound, propext
Props.moveaxis_back: Classical.choice, Quot.sound, propext
Props.moveaxis_error: Classical.choice, Quot.sound, propext
Props.moveaxis_ndim: Classical.choice, Quot.sound, propext
Props.moveaxis_ok_iff: Classical.choice, Quot.sound, propext
Props.mulFl_neg: Quot.sound, propext
Props.mul_mulC: Quot.sound, propext
Props.nameOf_inj: propext
Props.natStr_inj': Classical.choice, Quot.sound, propext
Props.near_abs: Classical.choice, Quot.sound, propext
Props.near_complete: Quot.sound, propext
Props.near_members: Quot.sound, propext
Props.near_mono: Classical.choice, Quot.sound, propext
Props.near_sq: Classical.choice, Quot.sound, propext
Props.near_sub: Classical.choice, Quot.sound, propext
Props.near_values: Quot.sound, propext
Props.never_of_null: Classical.choice, Quot.sound, propext
Props.newDims_len: Quot.sound, propext
Props.noDoubleWrite_of_check: Classical.choice, Quot.sound, propext
Props.noReadDuringWrite_of_check: Classical.choice, Quot.sound, propext
Props.noSlash_int: Classical.choice, Quot.sound, propext
Props.no_newline_append: propext
Props.no_none: Classical.choice, Quot.sound, propext
Props.noise_moments: Classical.choice, Quot.sound, propext
Props.noise_square: Classical.choice, Quot.sound, propext
Props.nominal_value: Classical.choice, Quot.sound, propext
Props.normAxes_fault: Classical.choice, Quot.sound, propext
Props.normAxis_error: none
Props.normalDays_eval: Classical.choice, Quot.sound, propext
Props.normalDays_gap: Classical.choice, Quot.sound, propext
Props.normalDays_id: Classical.choice, Quot.sound, propext
Props.normalDays_indep: Classical.choice, Quot.sound, propext
Props.normalDays_mean: Classical.choice, Quot.sound, propext
Props.normalDays_memLp: Classical.choice, Quot.sound, propext
Props.normalDays_same: Classical.choice, Quot.sound, propext
Props.normalDays_var: Classical.choice, Quot.sound, propext
Props.not_none_data: Classical.choice, Quot.sound, propext
Props.not_none_fiber: Classical.choice, Quot.sound, propext
Props.not_probOnly: propext
Props.npMin_npMax_eq: Quot.sound, propext
Props.npVar_some: Quot.sound, propext
Props.numLe_eq: Classical.choice, Quot.sound, propext
Props.numLe_le: Classical.choice, Quot.sound, propext
Props.numLe_ofFn: Classical.choice, Quot.sound, propext
Props.numLt_ofFn: Classical.choice, Quot.sound, propext
Props.numLt_some: Classical.choice, Quot.sound, propext
Props.numOf_cons: Classical.choice, Quot.sound, propext
Props.numOf_lt: Classical.choice, Quot.sound, propext
Props.numOf_mono: Classical.choice, Quot.sound, propext
Props.nums_ofNat: Quot.sound, propext
Props.obsTable_eq: Quot.sound, propext
Props.ok_scaled: Quot.sound, propext
Props.one_position: Quot.sound, propext
Props.one_sub_Phi: Classical.choice, Quot.sound, propext
Props.opOK_bad: Quot.sound, propext
Props.opOK_good: Quot.sound, propext
Props.openMany_cases: Classical.choice, Quot.sound, propext
Props.opposite_events: Quot.sound, propext
Props.opposite_others: Quot.sound, propext
Props.optOK_ofNat: Classical.choice, Quot.sound, propext
Props.optPlain_ok: Quot.sound, propext
Props.optStr_clean: propext
Props.orSetting_iff: Quot.sound, propext
Props.pairE_built: Classical.choice, Quot.sound, propext
Props.pairEns_built: Classical.choice, Quot.sound, propext
Props.pairGain_nonneg: Classical.choice, Quot.sound, propext
Props.pairMean_unit: Classical.choice, Quot.sound, propext
Props.pairObs_indep: Classical.choice, Quot.sound, propext
Props.pairObs_meas: Classical.choice, Quot.sound, propext
Props.pairObs_observed: Classical.choice, Quot.sound, propext
Props.pair_event: Classical.choice, Quot.sound, propext
Props.pair_mean: Classical.choice, Quot.sound, propext
Props.pairsAt_ne_nil: Classical.choice, Quot.sound, propext
Props.pairsAt_ok: Quot.sound, propext
Props.perm_map_exists: Quot.sound, propext
Props.phi_kernel: Classical.choice, Quot.sound, propext
Props.phi_zero_bounds: Classical.choice, Quot.sound, propext
Props.pick_fair: Classical.choice, Quot.sound, propext
Props.pit_random: Classical.choice, Quot.sound, propext
Props.pit_run: Classical.choice, Quot.sound, propext
Props.pit_value: Classical.choice, Quot.sound, propext
Props.placeGain_nonneg: Classical.choice, Quot.sound, propext
Props.placeGauss_made: Classical.choice, Quot.sound, propext
Props.placeGauss_says: Classical.choice, Quot.sound, propext
Props.placeOver_meas: Classical.choice, Quot.sound, propext
Props.placeTuple_made: Classical.choice, Quot.sound, propext
Props.placeTuple_says: Classical.choice, Quot.sound, propext
Props.place_chance: Classical.choice, Quot.sound, propext
Props.place_gain: Classical.choice, Quot.sound, propext
Props.place_honest: Classical.choice, Quot.sound, propext
Props.plainAxes_all: Classical.choice, Quot.sound, propext
Props.plain_body: Classical.choice, Quot.sound, propext
Props.plain_of_body: Classical.choice, Quot.sound, propext
Props.plain_optOK: Quot.sound, propext
Props.pooled_gain: Classical.choice, Quot.sound, propext
Props.pooled_given: Classical.choice, Quot.sound, propext
Props.popAt_first: Classical.choice, Quot.sound, propext
Props.popAt_last: Classical.choice, Quot.sound, propext
Props.popAt_pos: none
Props.popoviciu: Classical.choice, Quot.sound, propext
Props.posPair_days: Classical.choice, Quot.sound, propext
Props.posPair_iff: Classical.choice, Quot.sound, propext
Props.position_some: Classical.choice, Quot.sound, propext
Props.possible_of_offset: Classical.choice, Quot.sound, propext
Props.postBins_sim: Classical.choice, Quot.sound, propext
Props.postOpen_cases: Classical.choice, Quot.sound, propext
Props.postOpen_plain: Classical.choice, Quot.sound, propext
Props.postOpen_undecodable: Classical.choice, Quot.sound, propext
Props.post_averaged: Quot.sound, propext
Props.ppf_spec: Classical.choice, Quot.sound, propext
Props.present_if: Classical.choice, Quot.sound, propext
Props.present_some': Quot.sound, propext
Props.prints_int: Classical.choice, Quot.sound, propext
Props.probOf_near: Classical.choice, Quot.sound, propext
Props.probSettings_iff: Classical.choice, Quot.sound, propext
Props.prob_brier: Classical.choice, Quot.sound, propext
Props.prob_cdf: Classical.choice, Quot.sound, propext
Props.prob_unit: Classical.choice, Quot.sound, propext
Props.psGaussianElem_none: Classical.choice, Quot.sound, propext
Props.psGaussianElem_real: Classical.choice, Quot.sound, propext
Props.psScore_energy: Classical.choice, Quot.sound, propext
Props.pvalue_small: Classical.choice, Quot.sound, propext
Props.quantile_exists: Classical.choice, Quot.sound, propext
Props.range_getD: Quot.sound, propext
Props.rates_fst: Classical.choice, Quot.sound, propext
Props.rates_snd: Classical.choice, Quot.sound, propext
Props.ray_step: Classical.choice, Quot.sound, propext
Props.realLib_exact: Classical.choice, Quot.sound, propext
Props.realLib_unit: Classical.choice, Quot.sound, propext
Props.relBinsR_id: Classical.choice, Quot.sound, propext
Props.relBins_sorted: Classical.choice, Quot.sound, propext
Props.relBootSlice_true: Quot.sound, propext
Props.relSliceR_id: Classical.choice, Quot.sound, propext
Props.rel_all: Classical.choice, Quot.sound, propext
Props.rel_random: Classical.choice, Quot.sound, propext
Props.rel_result: Classical.choice, Quot.sound, propext
Props.rel_result_boot: Classical.choice, Quot.sound, propext
Props.rel_single_ok: Classical.choice, Quot.sound, propext
Props.rel_values: Classical.choice, Quot.sound, propext
Props.reliabilityIndex_value: Classical.choice, Quot.sound, propext
Props.reliability_nonneg: Classical.choice, Quot.sound, propext
Props.reqPost_quiet: Quot.sound, propext
Props.resOver_pos: Classical.choice, Quot.sound, propext
Props.resolution_nonneg: Classical.choice, Quot.sound, propext
Props.result_body: Classical.choice, Quot.sound, propext
Props.returned_step: Classical.choice, Quot.sound, propext
Props.rmse_unit: Classical.choice, Quot.sound, propext
Props.roc_values: Classical.choice, Quot.sound, propext
Props.roc_values_all: Classical.choice, Quot.sound, propext
Props.rop_id_add: Classical.choice, Quot.sound, propext
Props.rules_good: Classical.choice, Quot.sound, propext
Props.runGroup_alike: Classical.choice, Quot.sound, propext
Props.runGroup_file: Classical.choice, Quot.sound, propext
Props.runOps_has: Classical.choice, Quot.sound, propext
Props.runOps_metrics: Classical.choice, Quot.sound, propext
Props.run_callAll: Classical.choice, Quot.sound, propext
Props.run_keeps: Classical.choice, Quot.sound, propext
Props.sameBin_votes: Classical.choice, Quot.sound, propext
Props.same_axis: Classical.choice, Quot.sound, propext
Props.sampleDist_ok: Classical.choice, Quot.sound, propext
Props.sampleOf_negative: Quot.sound, propext
Props.sampled_ae: Classical.choice, Quot.sound, propext
Props.sampled_bounds: Classical.choice, Quot.sound, propext
Props.sampled_flat: Classical.choice, Quot.sound, propext
Props.sampled_integrable: Classical.choice, Quot.sound, propext
Props.sampled_measurable: Classical.choice, Quot.sound, propext
Props.sampled_rank: Classical.choice, Quot.sound, propext
Props.sampled_variation: Classical.choice, Quot.sound, propext
Props.samples_gamma: Classical.choice, Quot.sound, propext
Props.samples_gauss: Classical.choice, Quot.sound, propext
Props.savingGauss_made: Classical.choice, Quot.sound, propext
Props.says_iff: Classical.choice, Quot.sound, propext
Props.scale_one: Quot.sound, propext
Props.seq_sampled: Classical.choice, Quot.sound, propext
Props.setRaw_get: Classical.choice, Quot.sound, propext
Props.setting_fresh: Classical.choice, Quot.sound, propext
Props.settles_of_values: Classical.choice, Quot.sound, propext
Props.settles_often: Classical.choice, Quot.sound, propext
Props.settles_present: Classical.choice, Quot.sound, propext
Props.settles_there: Classical.choice, Quot.sound, propext
Props.settles_to: Classical.choice, Quot.sound, propext
Props.signal_le: Classical.choice, Quot.sound, propext
Props.signal_varies: Classical.choice, Quot.sound, propext
Props.signals_differ: Classical.choice, Quot.sound, propext
Props.skRoc_eq: Classical.choice, Quot.sound, propext
Props.skRoc_ext: Classical.choice, Quot.sound, propext
Props.slash_notin: Classical.choice, Quot.sound, propext
Props.slice_two: Classical.choice, Quot.sound, propext
Props.slotName_not_m: Classical.choice, Quot.sound, propext
Props.smoothCdf_bounds: Classical.choice, Quot.sound, propext
Props.specs_two: Classical.choice, Quot.sound, propext
Props.spins_eval: Classical.choice, Quot.sound, propext
Props.spins_fair: Classical.choice, Quot.sound, propext
Props.spins_one: Classical.choice, Quot.sound, propext
Props.split_slash: propext
Props.spreadSkill_opt: Classical.choice, Quot.sound, propext
Props.sqErrorOf_sc: Classical.choice, Quot.sound, propext
Props.sqError_unit: Classical.choice, Quot.sound, propext
Props.sq_diff_range: Classical.choice, Quot.sound, propext
Props.sq_error: Classical.choice, Quot.sound, propext
Props.sqrt_avg: Classical.choice, Quot.sound, propext
Props.sqrt_isSqrt: Classical.choice, Quot.sound, propext
Props.sqrt_mono: Classical.choice, Quot.sound, propext
Props.sqrt_scale: Classical.choice, Quot.sound, propext
Props.ssSplit_sc: Quot.sound, propext
Props.ss_body: Classical.choice, Quot.sound, propext
Props.ss_random: Classical.choice, Quot.sound, propext
Props.ss_result: Classical.choice, Quot.sound, propext
Props.stableSort_spec: Classical.choice, Quot.sound, propext
Props.stdGamma_law: Classical.choice, Quot.sound, propext
Props.stdGamma_moments: Classical.choice, Quot.sound, propext
Props.stdGamma_prob: Classical.choice, Quot.sound, propext
Props.stdNormal_Ici: Classical.choice, Quot.sound, propext
Props.stdNormal_Iic: Classical.choice, Quot.sound, propext
Props.stdNormal_Iio: Classical.choice, Quot.sound, propext
Props.stdNormal_gaussian: Classical.choice, Quot.sound, propext
Props.stdNormal_law: Classical.choice, Quot.sound, propext
Props.stdNormal_mean: Classical.choice, Quot.sound, propext
Props.stdNormal_moments: Classical.choice, Quot.sound, propext
Props.stdNormal_shift: Classical.choice, Quot.sound, propext
Props.std_above: Classical.choice, Quot.sound, propext
Props.std_below: Classical.choice, Quot.sound, propext
Props.step_has: Classical.choice, Quot.sound, propext
Props.step_none: Classical.choice, Quot.sound, propext
Props.stieltjes_mean_range: Classical.choice, Quot.sound, propext
Props.stieltjes_variance_nonneg: Classical.choice, Quot.sound, propext
Props.sub_addC: Quot.sound, propext
Props.sub_mulC: Quot.sound, propext
Props.sum_eq_trapezoid: Classical.choice, Quot.sound, propext
Props.sum_happened: Classical.choice, Quot.sound, propext
Props.sum_iff: Classical.choice, Quot.sound, propext
Props.sum_map_getD: Classical.choice, Quot.sound, propext
Props.sum_map_linspace_head: Classical.choice, Quot.sound, propext
Props.sum_not_over: Classical.choice, Quot.sound, propext
Props.sum_over: Classical.choice, Quot.sound, propext
Props.sum_range_fin: Classical.choice, Quot.sound, propext
Props.sum_swap: Quot.sound, propext
Props.sum_unit: Classical.choice, Quot.sound, propext
Props.sum_zipWith_sub: Classical.choice, Quot.sound, propext
Props.summary_length: Quot.sound, propext
Props.summary_spec: Quot.sound, propext
Props.suppress_ok: Classical.choice, Quot.sound, propext
Props.suppressed: Classical.choice, Quot.sound, propext
Props.terms_perm: Quot.sound, propext
Props.terms_votes: Classical.choice, Quot.sound, propext
Props.textOK_rat: Classical.choice, Quot.sound, propext
Props.three_indep: Classical.choice, Quot.sound, propext
Props.three_int: Classical.choice, Quot.sound, propext
Props.three_mean: Classical.choice, Quot.sound, propext
Props.three_memLp: Classical.choice, Quot.sound, propext
Props.three_preserves: Classical.choice, Quot.sound, propext
Props.three_sq: Classical.choice, Quot.sound, propext
Props.three_votes: Classical.choice, Quot.sound, propext
Props.tooLong_large: propext
Props.tooLong_ok: Quot.sound
Props.trapezoid_split: Classical.choice, Quot.sound, propext
Props.treeW_dir: Classical.choice, Quot.sound, propext
Props.tripleE_built: Classical.choice, Quot.sound, propext
Props.triple_indep: Classical.choice, Quot.sound, propext
Props.triple_law: Classical.choice, Quot.sound, propext
Props.truncGaussElem_none: Classical.choice, Quot.sound, propext
Props.truncGaussElem_real: Classical.choice, Quot.sound, propext
Props.trunc_mean_pos: Classical.choice, Quot.sound, propext
Props.turns_exchangeable: Classical.choice, Quot.sound, propext
Props.twenty_votes: Classical.choice, Quot.sound, propext
Props.twoNormals_fst: Classical.choice, Quot.sound, propext
Props.twoNormals_snd: Classical.choice, Quot.sound, propext
Props.two_positions: Quot.sound, propext
Props.unitLib_step: Classical.choice, Quot.sound, propext
Props.unit_gauss: Classical.choice, Quot.sound, propext
Props.usual_prob: Classical.choice, Quot.sound, propext
Props.validateAxis_axesOf: propext
Props.validateAxis_ok: Quot.sound, propext
Props.validateAxis_tuple: propext
Props.validateEnsembleAxis_some: none
Props.validate_again: none
Props.validate_common: Quot.sound, propext
Props.validate_has: Quot.sound, propext
Props.validate_none: Quot.sound, propext
Props.validate_parts: Quot.sound, propext
Props.validate_share: Quot.sound, propext
Props.valueCounts_obs: Classical.choice, Quot.sound, propext
Props.varEstimate_one: Classical.choice, Quot.sound, propext
Props.verdict: Classical.choice, Quot.sound, propext
Props.voteRate_perm: Quot.sound, propext
Props.votes_count: Classical.choice, Quot.sound, propext
Props.wetE_built: Classical.choice, Quot.sound, propext
Props.wet_dry: Classical.choice, Quot.sound, propext
Props.wins_add: Classical.choice, Quot.sound, propext
Props.wins_one: Classical.choice, Quot.sound, propext
Props.wins_range: Classical.choice, Quot.sound, propext
Props.wins_swap: Classical.choice, Quot.sound, propext
Props.wins_zero: Classical.choice, Quot.sound, propext
Props.withDet_cls: Classical.choice, Quot.sound, propext
Props.withDraw_fresh: Classical.choice, Quot.sound, propext
Props.withDraw_fst: Classical.choice, Quot.sound, propext
Props.withLast_cons: propext
Props.workflow_axes: Classical.choice, Quot.sound, propext
Props.writesTo_iff: Classical.choice, Quot.sound, propext
Props.z_pos: Classical.choice, Quot.sound, propext
Props.zero_notMem_set: Quot.sound, propext
Props.zipWith_map_both: Quot.sound, propext
Props.zipWith_spec: Classical.choice, Quot.sound, propext
