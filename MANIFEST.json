{
 "claims": [
  {
   "property": "C01",
   "status": "partial",
   "theorems": [
    "Mizar.Props.C01_rejects_bad_test_splits",
    "Mizar.Props.C01_accepts_valid_partial",
    "Mizar.Props.C01_n_splits_refuted",
    "Mizar.Props.C01_overflow_refuted",
    "Mizar.Props.C01_any_size",
    "Mizar.Props.C01_accepted_iff"
   ],
   "note": "Proved for every size: the exact acceptance condition (C01_accepted_iff), OverflowError exactly from 2^1024 - 2^970 on, and the reported number of splits is a double nearest to C(N,k), exact exactly if C(N,k) is a double. Refuted as documented: (57,25) reports a rounded number, (1030,515) raises OverflowError."
  },
  {
   "property": "C02",
   "status": "proved",
   "theorems": [
    "Mizar.Props.C02_every_combination_once",
    "Mizar.Props.C02_first_round_at_end"
   ],
   "note": "Proved for all sizes."
  },
  {
   "property": "C03",
   "status": "proved",
   "theorems": [
    "Mizar.Props.C03_folds_balanced_partition",
    "Mizar.Props.C03_too_few_samples"
   ],
   "note": "Proved; the error for more groups than samples (empty folds) is covered."
  },
  {
   "property": "C04",
   "status": "proved",
   "theorems": [
    "Mizar.Props.C04_train_test_disjoint",
    "Mizar.Props.C04_train_sorted"
   ],
   "note": "Proved."
  },
  {
   "property": "C05",
   "status": "proved",
   "theorems": [
    "Mizar.Props.C05_purged_before_test"
   ],
   "note": "Proved."
  },
  {
   "property": "C06",
   "status": "partial",
   "theorems": [
    "Mizar.Props.C06_no_leakage_partial",
    "Mizar.Props.C06_no_leakage_early_tests_partial",
    "Mizar.Props.C06_no_leakage_refuted",
    "Mizar.Props.C06_long_embargo_refuted"
   ],
   "note": "Refuted: when the embargo of an early test block reaches beyond the end of the data it is skipped completely. Partial theorems give the exact side conditions under which no leakage remains."
  },
  {
   "property": "C07",
   "status": "partial",
   "theorems": [
    "Mizar.Props.C07_no_overdrop_partial",
    "Mizar.Props.C07_no_overdrop_refuted",
    "Mizar.Props.C07_exact_train_set_partial",
    "Mizar.Props.C07_train_set"
   ],
   "note": "Refuted: the embargo after a block is computed from the first test_fold_end test positions, which may include later blocks, and drops innocent samples. Proved instead: the exact train set of every round (C07_train_set). Partial: no over-dropping for one contiguous test block."
  },
  {
   "property": "C08",
   "status": "proved",
   "theorems": [
    "Mizar.Props.C08_tested_equally_often"
   ],
   "note": "Proved."
  },
  {
   "property": "C09",
   "status": "proved",
   "theorems": [
    "Mizar.Props.C09_back_test_paths",
    "Mizar.Props.C09_back_test_paths_book",
    "Mizar.Props.C09_any_size",
    "Mizar.Props.C09_outside"
   ],
   "note": "Proved for every size: nearest double or OverflowError (C09_any_size), exact up to 53 bits, the textbook identity k/N*C(N,k), and the values outside 1..N."
  },
  {
   "property": "C10",
   "status": "partial",
   "theorems": [
    "Mizar.Props.C10_paths_sound",
    "Mizar.Props.C10_path_count_partial",
    "Mizar.Props.C10_paths_refuted"
   ],
   "note": "Soundness of every returned set of paths proved. Completeness refuted for all 2 <= k <= N-2 (IndexError), proved for k = 1 and k = N-1."
  },
  {
   "property": "C11",
   "status": "proved",
   "theorems": [
    "Mizar.Props.C11_indicator_matrix"
   ],
   "note": "Proved for all event lists and bar indices."
  },
  {
   "property": "C12",
   "status": "partial",
   "theorems": [
    "Mizar.Props.C12_missing_times_raise",
    "Mizar.Props.C12_returns_iff_partial",
    "Mizar.Props.C12_single_event_refuted"
   ],
   "note": "Missing times raise ValueError (proved). Which inputs return is characterised exactly; the property is refuted: one event, or events covering all the same bars, raise AssertionError because the matrix has no zero."
  },
  {
   "property": "C13",
   "status": "proved",
   "theorems": [
    "Mizar.Props.C13_average_uniqueness",
    "Mizar.Props.C13_transform",
    "Mizar.Props.C13_transform_asserts"
   ],
   "note": "Proved, with the assertion errors of the transformer covered."
  },
  {
   "property": "C14",
   "status": "proved",
   "theorems": [
    "Mizar.Props.C14_uniqueness_conserved"
   ],
   "note": "Proved."
  },
  {
   "property": "C15",
   "status": "proved",
   "theorems": [
    "Mizar.Props.C15_incremental_equals_recomputed"
   ],
   "note": "Proved: invariant of the loop, for every random choice."
  },
  {
   "property": "C16",
   "status": "proved",
   "theorems": [
    "Mizar.Props.C16_length_and_range",
    "Mizar.Props.C16_errors",
    "Mizar.Props.C16_negative_batch_returns_nothing"
   ],
   "note": "Proved, with the error branches; a negative batch size returns no samples."
  },
  {
   "property": "C17",
   "status": "proved",
   "theorems": [
    "Mizar.Props.C17_positive_distribution"
   ],
   "note": "Proved."
  },
  {
   "property": "C18",
   "status": "proved",
   "theorems": [
    "Mizar.Props.C18_uniqueness_decreases"
   ],
   "note": "Proved."
  },
  {
   "property": "C19",
   "status": "proved",
   "theorems": [
    "Mizar.Props.C19_independent_of_jobs"
   ],
   "note": "Proved: any number of jobs gives the same ensemble."
  },
  {
   "property": "C20",
   "status": "proved",
   "theorems": [
    "Mizar.Props.C20_warm_start_equals_cold",
    "Mizar.Props.C20_cold_fit_forgets"
   ],
   "note": "Proved for all fit histories."
  },
  {
   "property": "C21",
   "status": "proved",
   "theorems": [
    "Mizar.Props.C21_attributes_aligned",
    "Mizar.Props.C21_failed_warm_fit_changes_nothing"
   ],
   "note": "Proved for all fit histories, including failing calls."
  },
  {
   "property": "C22",
   "status": "proved",
   "theorems": [
    "Mizar.Props.C22_weights_are_counts"
   ],
   "note": "Proved."
  },
  {
   "property": "C23",
   "status": "partial",
   "theorems": [
    "Mizar.Props.C23_oob_decision_partial",
    "Mizar.Props.C23_single_class_refuted",
    "Mizar.Props.C23_raises_refuted",
    "Mizar.Props.C23_outcome"
   ],
   "note": "Proved when every base estimator saw all classes and does not have to score an empty set; refuted otherwise (single-class estimator is broadcast; ValueError with 2 of 3 classes or an estimator without out-of-bag row). C23_outcome: the exact outcome for any estimators, whatever classes they know: when it can be computed, and that only estimators that did not see a row enter its value."
  },
  {
   "property": "C24",
   "status": "partial",
   "theorems": [
    "Mizar.Props.C24_max_samples_partial",
    "Mizar.Props.C24_infinite_max_samples_refuted",
    "Mizar.Props.C24_max_features"
   ],
   "note": "Proved for all integer and finite float parameters; refuted for infinite max_samples (OverflowError instead of ValueError)."
  },
  {
   "property": "C25",
   "status": "proved",
   "theorems": [
    "Mizar.Props.C25_first_breach"
   ],
   "note": "Refinement of the numba loop to 'earliest bar in [start, expiration) that breaches', for any bars, NaN prices, sides and barriers; event close positive or NaN."
  },
  {
   "property": "C26",
   "status": "partial",
   "theorems": [
    "Mizar.Props.C26_any_times",
    "Mizar.Props.C26_sub_millisecond_refuted",
    "Mizar.Props.C26_event_end_partial"
   ],
   "note": "C26_any_times: the exact outcome of the whole transform (default side column name) for all increasing times, missing prices and volatilities: the search for a breach goes by milliseconds. Refuted for bars inside one millisecond, where an event can end before it starts (C26_sub_millisecond_refuted). C26_event_end_partial: the claim for whole-millisecond times different from the epoch, volatility >= 0 or missing."
  },
  {
   "property": "C27",
   "status": "partial",
   "theorems": [
    "Mizar.Props.C27_sub_millisecond_refuted",
    "Mizar.Props.C27_label_of_first_barrier_partial"
   ],
   "note": "C27_label_of_first_barrier_partial: same input class as C26_event_end_partial; without side column and metalabeling. Refuted for bars inside one millisecond (C27_sub_millisecond_refuted); the exact label there is in C26_any_times."
  },
  {
   "property": "C28",
   "status": "proved",
   "theorems": [
    "Mizar.Props.C28_any_times",
    "Mizar.Props.C28_metalabel",
    "Mizar.Props.C28_return"
   ],
   "note": "C28_any_times: whenever the call returns, for all increasing times. C28_metalabel and C28_return: for whole-millisecond times the call returns; the only exception is the label 0 of expired events with expiration_label."
  },
  {
   "property": "C29",
   "status": "partial",
   "theorems": [
    "Mizar.Props.C29_sub_millisecond_refuted",
    "Mizar.Props.C29_any_times",
    "Mizar.Props.C29_no_look_ahead_partial",
    "Mizar.Props.C29_metalabel_refuted"
   ],
   "note": "Proved: two arbitrary calls that both return, and that agree on times, on the prices of bars i..i+n and on side and volatility of bar i, give the same row i. Refuted without 'both return': with metalabeling, whether the call fails depends on whether any event of the frame ends (C29_metalabel_refuted). Refuted for bars inside one millisecond (C29_sub_millisecond_refuted). Exact for all increasing times: the row depends on the prices of the bars up to i+n that are not before the millisecond of bar i (C29_any_times)."
  },
  {
   "property": "C30",
   "status": "partial",
   "theorems": [
    "Mizar.Props.C30_no_volatility_no_label_partial",
    "Mizar.Props.C30_other_rows_partial",
    "Mizar.Props.C30_no_event_ends",
    "Mizar.Props.C30_metalabel_refuted"
   ],
   "note": "Proved for frames that are labelled: rows without volatility are blank; whether other bars have a volatility does not matter. With metalabeling the call raises ValueError exactly if no event of the frame ends (C30_no_event_ends), so a frame without any volatility is not returned blank (C30_metalabel_refuted)."
  },
  {
   "property": "C31",
   "status": "partial",
   "theorems": [
    "Mizar.Props.C31_default_side_partial",
    "Mizar.Props.C31_side_used_partial",
    "Mizar.Props.C31_custom_side_column_refuted"
   ],
   "note": "Refuted: any side_column_name other than 'side' raises for every frame. Partial: with the default name that column is used and no other column matters; without it the side is 1 (or an error with metalabeling)."
  },
  {
   "property": "C32",
   "status": "partial",
   "theorems": [
    "Mizar.Props.C32_any_times",
    "Mizar.Props.C32_shift_partial",
    "Mizar.Props.C32_epoch_refuted",
    "Mizar.Props.C32_sub_millisecond_refuted"
   ],
   "note": "Refuted at the epoch (hit at time 0 means no hit) and off the millisecond grid (KeyError). Partial: shift by whole milliseconds that avoids the epoch. C32_any_times: for all increasing times, shift by whole milliseconds that avoids the first millisecond of 1970, exceptions included."
  },
  {
   "property": "C33",
   "status": "proved",
   "theorems": [
    "Mizar.Props.C33_reference_bar",
    "Mizar.Props.C33_no_reference_no_value",
    "Mizar.Props.C33_estimator_of_returns",
    "Mizar.Props.C33_causal"
   ],
   "note": "Reference bar, missing values and causality with the concrete pandas recursion of ewm().std()."
  },
  {
   "property": "C34",
   "status": "proved",
   "theorems": [
    "Mizar.Props.C34_events",
    "Mizar.Props.C34_repeated_times_raise"
   ],
   "note": "Events of both sides are exactly the draw-up/draw-down breaches; repeated index values raise."
  },
  {
   "property": "C35",
   "status": "proved",
   "theorems": [
    "Mizar.Props.C35_threshold_antitone"
   ],
   "note": "By interleaving of the two runs."
  },
  {
   "property": "C36",
   "status": "proved",
   "theorems": [
    "Mizar.Props.C36_subsequence",
    "Mizar.Props.C36_causal",
    "Mizar.Props.C36_shift_invariant",
    "Mizar.Props.C36_mirror_invariant",
    "Mizar.Props.C36_negative_threshold_selects_all",
    "Mizar.Props.C36_scale_invariant",
    "Mizar.Props.C36_one_side_only"
   ],
   "note": "Subsequence without the first bar, prefix property, shift and mirror invariance, never both sides; negative thresholds select every bar."
  },
  {
   "property": "C37",
   "status": "partial",
   "theorems": [
    "Mizar.Props.C37_size_in_unit_interval_partial",
    "Mizar.Props.C37_never_outside",
    "Mizar.Props.C37_one_class_refuted"
   ],
   "note": "For at least two classes, sides in {-1,0,1} (the code asserts this). With one class probability 1 gives NaN and an AssertionError (refuted)."
  },
  {
   "property": "C38",
   "status": "partial",
   "theorems": [
    "Mizar.Props.C38_monotone_partial",
    "Mizar.Props.C38_zero_at_chance",
    "Mizar.Props.C38_size_formula",
    "Mizar.Props.C38_below_chance_refuted"
   ],
   "note": "Monotone from the chance level on, zero at it, exact formula per row; below the chance level the size falls with the probability (refuted)."
  },
  {
   "property": "C39",
   "status": "partial",
   "theorems": [
    "Mizar.Props.C39_discretise",
    "Mizar.Props.C39_special_values",
    "Mizar.Props.C39_bad_step",
    "Mizar.Props.C39_idempotent_partial",
    "Mizar.Props.C39_idempotent_refuted",
    "Mizar.Props.C39_small_step_not_idempotent",
    "Mizar.Props.C39_transform"
   ],
   "note": "Range, monotone, odd, closeness for all steps in (0,1); idempotent for signals in [-1,1]; outside that range it is not (refuted)."
  },
  {
   "property": "C40",
   "status": "partial",
   "theorems": [
    "Mizar.Props.C40_any_times",
    "Mizar.Props.C40_average_active_partial",
    "Mizar.Props.C40_transform_partial",
    "Mizar.Props.C40_before_1970_refuted",
    "Mizar.Props.C40_sub_millisecond_refuted"
   ],
   "note": "For whole-millisecond times and no end before 1970, for the function and through the transformer; both restrictions are shown to be necessary (refuted). C40_any_times gives the exact result for all times: the mean of the bets active in whole milliseconds, an end before 1970 counting as missing."
  },
  {
   "property": "C41",
   "status": "partial",
   "theorems": [
    "Mizar.Props.C41_name_irrelevant_partial",
    "Mizar.Props.C41_custom_name_refuted"
   ],
   "note": "Without averaging the name is irrelevant; with averaging any other name raises KeyError (refuted)."
  },
  {
   "property": "C42",
   "status": "partial",
   "theorems": [
    "Mizar.Props.C42_any_times",
    "Mizar.Props.C42_weights_by_return_partial",
    "Mizar.Props.C42_local",
    "Mizar.Props.C42_sub_millisecond_refuted",
    "Mizar.Props.C42_missing_end"
   ],
   "note": "For whole-millisecond times; missing prices skipped; within a millisecond neighbouring bars leak in (refuted). C42_any_times gives the exact result for all times: the bars whose millisecond lies in the life span in milliseconds."
  },
  {
   "property": "C43",
   "status": "partial",
   "theorems": [
    "Mizar.Props.C43_time_decay_partial",
    "Mizar.Props.C43_minus_one_refuted",
    "Mizar.Props.C43_below_minus_one_refuted",
    "Mizar.Props.C43_above_one"
   ],
   "note": "For minimum weights above -1 and at least two events; -1 gives NaN for all events and smaller values reverse the decay (both refuted for every frame)."
  },
  {
   "property": "C44",
   "status": "partial",
   "theorems": [
    "Mizar.Props.C44_alignment_partial",
    "Mizar.Props.C44_missing_value_refuted",
    "Mizar.Props.C44_before_1700_refuted",
    "Mizar.Props.C44_any_rows",
    "Mizar.Props.C44_unknown_method"
   ],
   "note": "For complete feature rows and times after 1700-01-01; both restrictions are necessary: a missing aggregate is replaced by the previous row, and rows at or before the start constant are skipped (both refuted). C44_any_rows gives the exact result for missing values, all dates and alignment times in any order; C44_unknown_method: when a method that is not known raises."
  },
  {
   "property": "C45",
   "status": "proved",
   "theorems": [
    "Mizar.Props.C45_no_look_ahead"
   ],
   "note": "For the whole alignment step on dictionaries of frames, for both feature sets."
  },
  {
   "property": "C46",
   "status": "proved",
   "theorems": [
    "Mizar.Props.C46_index_and_keys",
    "Mizar.Props.C46_no_lead",
    "Mizar.Props.C46_missing_aggregation"
   ],
   "note": "Index, columns, keys and the lead frame; a missing or unknown aggregation raises KeyError as soon as one alignment interval holds two rows."
  },
  {
   "property": "C47",
   "status": "proved",
   "theorems": [
    "Mizar.Props.C47_transform"
   ],
   "note": "Exact equality of the key sets is required by the code; the theorem characterises success completely."
  },
  {
   "property": "C48",
   "status": "proved",
   "theorems": [
    "Mizar.Props.C48_side_and_size",
    "Mizar.Props.C48_scored_times"
   ],
   "note": "Side and size rows characterised for primary-only and metalabeling pipelines with arbitrary fitted models, including which times are scored."
  },
  {
   "property": "C49",
   "status": "proved",
   "theorems": [
    "Mizar.Props.C49_dataset_primary",
    "Mizar.Props.C49_bad_label",
    "Mizar.Props.C49_keep_missing",
    "Mizar.Props.C49_dataset_metalabeling",
    "Mizar.Props.C49_predictions_only_raises"
   ],
   "note": "Primary and metalabeling sets, including the option to keep missing values and the error on labels outside the known ones; predictions used alone as metalabel features raise."
  },
  {
   "property": "C50",
   "status": "partial",
   "theorems": [
    "Mizar.Props.C50_closing_model_refuted",
    "Mizar.Props.C50_closing_model_partial"
   ],
   "note": "The code looks for a misspelled attribute: with a model configured through the constructor the call raises (refuted); the partial states the behaviour when the attribute looked for exists."
  },
  {
   "property": "C51",
   "status": "proved",
   "theorems": [
    "Mizar.Props.C51_history",
    "Mizar.Props.C51_create_signal",
    "Mizar.Props.C51_duplicates"
   ],
   "note": "For every history of create_signal, create_strategy_bars and create_position calls."
  },
  {
   "property": "C52",
   "status": "partial",
   "theorems": [
    "Mizar.Props.C52_inputs_unchanged_refuted",
    "Mizar.Props.C52_rest_unchanged_partial",
    "Mizar.Props.C52_repeatable_partial",
    "Mizar.Props.C52_failed_call_refuted",
    "Mizar.Props.C52_repeatable_refuted"
   ],
   "note": "The given frame gets three columns (refuted for every successful call); a second call can then raise (refuted); a call that raises for want of a profit-taking factor has already written the stop losses (refuted). Partial: all else is unchanged, and a second call agrees when the pipeline ignores the added columns."
  },
  {
   "property": "C53",
   "status": "partial",
   "theorems": [
    "Mizar.Props.C53_position_rows_partial",
    "Mizar.Props.C53_default_factors_refuted",
    "Mizar.Props.C53_created",
    "Mizar.Props.C53_no_barriers_refuted",
    "Mizar.Props.C53_outcome"
   ],
   "note": "When both factors are given, or the volatility is used and no bar lies more than a day before another. Otherwise the default None raises TypeError (C53_default_factors_refuted), and on such a short history the default gives positions without barriers (C53_no_barriers_refuted). The index is the union of signal times and bars. Under the stated conditions a position is created (C53_created). C53_outcome: exactly which calls create positions and which exception the others raise."
  },
  {
   "property": "C54",
   "status": "partial",
   "theorems": [
    "Mizar.Props.C54_any_index",
    "Mizar.Props.C54_filled",
    "Mizar.Props.C54_crossings_partial",
    "Mizar.Props.C54_filled_partial",
    "Mizar.Props.C54_raises",
    "Mizar.Props.C54_gap_refuted",
    "Mizar.Props.C54_duplicate_times_refuted"
   ],
   "note": "Complete for the unfilled side with unique times (missing prices allowed). With filling: from the first crossing on, for complete prices; equal averages keep the side. Refuted for a crossing inside a gap of missing prices and for duplicate index labels. C54_any_index and C54_filled give the exact result for every price path and every index, duplicates and gaps included."
  },
  {
   "property": "C55",
   "status": "proved",
   "theorems": [
    "Mizar.Props.C55_one_hot"
   ],
   "note": "All four rule-based predictors. Indicators of talib are arbitrary functions; a result of another length raises."
  },
  {
   "property": "C56",
   "status": "proved",
   "theorems": [
    "Mizar.Props.C56_mean_reversion",
    "Mizar.Props.C56_negative_threshold"
   ],
   "note": "The moving average is an arbitrary column (talib). Also states what a negative threshold does."
  },
  {
   "property": "C57",
   "status": "proved",
   "theorems": [
    "Mizar.Props.C57_macd"
   ],
   "note": "The MACD histogram is an arbitrary column (talib)."
  },
  {
   "property": "C58",
   "status": "partial",
   "theorems": [
    "Mizar.Props.C58_cross_over_partial",
    "Mizar.Props.C58_duplicate_times_refuted",
    "Mizar.Props.C58_ewm",
    "Mizar.Props.C58_strategies",
    "Mizar.Props.C58_vpin",
    "Mizar.Props.C58_z_score",
    "Mizar.Props.C58_microstructure"
   ],
   "note": "Every feature transformer: equality of results on every prefix of every frame, including errors. Strategies on talib indicators are causal if the indicator is. Crossover sides need unique times (refuted otherwise)."
  },
  {
   "property": "C59",
   "status": "partial",
   "theorems": [
    "Mizar.Props.C59_vpin_partial",
    "Mizar.Props.C59_defined_after_window",
    "Mizar.Props.C59_missing_column",
    "Mizar.Props.C59_first_window_refuted",
    "Mizar.Props.C59_any_values",
    "Mizar.Props.C59_missing_volume_refuted"
   ],
   "note": "Range, warm-up and exact value for complete volumes; no value from position window on is missing, for all data. Refuted: at position window-1 the value is missing when the first window has no volume. C59_any_values: the exact value for missing, negative and inconsistent volumes; missing volumes are reported as balance (C59_missing_volume_refuted)."
  },
  {
   "property": "C60",
   "status": "proved",
   "theorems": [
    "Mizar.Props.C60_bounds",
    "Mizar.Props.C60_scale_free",
    "Mizar.Props.C60_parkinson_value",
    "Mizar.Props.C60_corwin_value",
    "Mizar.Props.C60_beckers_value"
   ],
   "note": "Bounds and scale invariance for all data including missing values; exact values against the published formulas for positive complete prices."
  },
  {
   "property": "C61",
   "status": "proved",
   "theorems": [
    "Mizar.Props.C61_nonneg",
    "Mizar.Props.C61_price_scale",
    "Mizar.Props.C61_volume_scale",
    "Mizar.Props.C61_values"
   ],
   "note": "Signs and scaling for all data including missing values; exact values for complete data."
  },
  {
   "property": "C62",
   "status": "proved",
   "theorems": [
    "Mizar.Props.C62_factory",
    "Mizar.Props.C62_affine",
    "Mizar.Props.C62_value",
    "Mizar.Props.C62_bound"
   ],
   "note": "Invariance and bound for all data including missing and infinite values and every window; exact value."
  },
  {
   "property": "C63",
   "status": "proved",
   "theorems": [
    "Mizar.Props.C63_convex_combination",
    "Mizar.Props.C63_weights",
    "Mizar.Props.C63_range"
   ],
   "note": "Convex combination for every span >= 1, explicit weights for span >= 2 (span 1 after a gap keeps the last value, where the explicit formula would be 0/0). The averages of talib are parameters."
  },
  {
   "property": "C64",
   "status": "proved",
   "theorems": [
    "Mizar.Props.C64_signature",
    "Mizar.Props.C64_no_signature"
   ],
   "note": "Docstrings are arbitrary strings of the documented form with plain names; a docstring without parentheses raises."
  },
  {
   "property": "C65",
   "status": "partial",
   "theorems": [
    "Mizar.Props.C65_named_columns",
    "Mizar.Props.C65_one_array",
    "Mizar.Props.C65_two_arrays_partial",
    "Mizar.Props.C65_two_arrays_refuted",
    "Mizar.Props.C65_keywords",
    "Mizar.Props.C65_transformer",
    "Mizar.Props.C65_transformer_one_array",
    "Mizar.Props.C65_unknown"
   ],
   "note": "Refuted for two-array functions when the first column is called real1; otherwise the renaming is simultaneous. talib functions are parameters."
  },
  {
   "property": "C66",
   "status": "proved",
   "theorems": [
    "Mizar.Props.C66_supremum",
    "Mizar.Props.C66_constant_start",
    "Mizar.Props.C66_two_sided",
    "Mizar.Props.C66_causal",
    "Mizar.Props.C66_affine",
    "Mizar.Props.C66_sides",
    "Mizar.Props.C66_missing"
   ],
   "note": "Complete series for the value; causality and invariance hold for all series, with missing values too. numba's error model is a parameter; the constant start raises under the default one. C66_missing: the exact outcome of a series with missing values: from the first one on the statistic is minus infinity without critical value."
  },
  {
   "property": "C67",
   "status": "proved",
   "theorems": [
    "Mizar.Props.C67_least_squares",
    "Mizar.Props.C67_rank_deficient",
    "Mizar.Props.C67_not_finite",
    "Mizar.Props.C67_exact_fit",
    "Mizar.Props.C67_t_value",
    "Mizar.Props.C67_t_value_exact_fit"
   ],
   "note": "Rows of finite numbers for the value; missing or infinite regressors raise. Exact arithmetic: singular means exactly singular."
  },
  {
   "property": "C68",
   "status": "partial",
   "theorems": [
    "Mizar.Props.C68_design_standard",
    "Mizar.Props.C68_design_martingale",
    "Mizar.Props.C68_supremum",
    "Mizar.Props.C68_penalty_partial",
    "Mizar.Props.C68_causal",
    "Mizar.Props.C68_constructor",
    "Mizar.Props.C68_no_lags",
    "Mizar.Props.C68_unknown_model",
    "Mizar.Props.C68_missing_value",
    "Mizar.Props.C68_penalty_refuted",
    "Mizar.Props.C68_design_gaps",
    "Mizar.Props.C68_gap_refuted"
   ],
   "note": "Supremum over all admissible windows for the Dickey-Fuller models, for windows with a proper regression; causality for every series. The documented penalty of the martingale models is refuted; the partial theorem gives the one the code uses. C68_design_gaps: the exact regressions for series with missing values (the Dickey-Fuller models bridge the gap, C68_gap_refuted); with C68_supremum this gives the statistics."
  },
  {
   "property": "C69",
   "status": "partial",
   "theorems": [
    "Mizar.Props.C69_statistic_partial",
    "Mizar.Props.C69_value",
    "Mizar.Props.C69_no_margin",
    "Mizar.Props.C69_short",
    "Mizar.Props.C69_missing_value",
    "Mizar.Props.C69_leading_missing",
    "Mizar.Props.C69_gap",
    "Mizar.Props.C69_all_missing",
    "Mizar.Props.C69_leading_missing_refuted"
   ],
   "note": "C69_statistic_partial: complete series whose regressions are neither singular nor exact; the closed form of each value is C69_value. C69_leading_missing: exact outcome when the first values are missing (none is a special case), singular and exact regressions included; C69_gap, C69_all_missing, C69_short: the other series without infinite values. Refuted if the first values are missing: the dummy then starts as many bars too late (C69_leading_missing_refuted)."
  },
  {
   "property": "C70",
   "status": "partial",
   "theorems": [
    "Mizar.Props.C70_zero_memory",
    "Mizar.Props.C70_step_one_partial",
    "Mizar.Props.C70_refuted"
   ],
   "note": "Holds for step 1 (and 0, which raises) for every series, parameter and memory; for every other step it is refuted for every series whose first values do not lie on a line. With zeroed memory and a positive step the result is the best of the windows that are tried (C70_zero_memory)."
  },
  {
   "property": "C71",
   "status": "partial",
   "theorems": [
    "Mizar.Props.C71_any_step",
    "Mizar.Props.C71_best_partial",
    "Mizar.Props.C71_missing_values",
    "Mizar.Props.C71_two_points",
    "Mizar.Props.C71_one_point",
    "Mizar.Props.C71_full_window_refuted"
   ],
   "note": "Holds for step 1 with the windows of min_sample_length up to look_forward_window - 1 bars; the documented longest window is never tried (refuted on a witness). Missing values, min_sample_length 2 and below have their own theorems. C71_any_step gives the exact rows for every non-zero step and every content of the memory."
  },
  {
   "property": "C72",
   "status": "partial",
   "theorems": [
    "Mizar.Props.C72_given_events_partial",
    "Mizar.Props.C72_frozen",
    "Mizar.Props.C72_same_index_partial",
    "Mizar.Props.C72_refuted"
   ],
   "note": "Holds when events are given or all series have the same index; refuted without events."
  },
  {
   "property": "C73",
   "status": "proved",
   "theorems": [
    "Mizar.Props.C73_scale",
    "Mizar.Props.C73_mirror"
   ],
   "note": "All series, also with missing or infinite values, all steps for positive factors; negative factors with step 1 (with other steps uninitialised memory takes part, C70). The return column is not part of the claim."
  },
  {
   "property": "C74",
   "status": "proved",
   "theorems": [
    "Mizar.Props.C74_distribution",
    "Mizar.Props.C74_equal_ratios",
    "Mizar.Props.C74_quantile",
    "Mizar.Props.C74_density",
    "Mizar.Props.C74_default",
    "Mizar.Props.C74_zero_bound",
    "Mizar.Props.C74_special"
   ],
   "note": "Exact real arithmetic; distribution function, equal ratios, quantiles, density, defaults and the lower bound 0."
  },
  {
   "property": "C75",
   "status": "proved",
   "theorems": [
    "Mizar.Props.C75_floor",
    "Mizar.Props.C75_order",
    "Mizar.Props.C75_round_trip",
    "Mizar.Props.C75_missing",
    "Mizar.Props.C75_missing_least"
   ],
   "note": "64-bit nanosecond counts."
  },
  {
   "property": "C76",
   "status": "proved",
   "theorems": [
    "Mizar.Props.C76_local_max"
   ],
   "note": "Every value that is not missing; missing values characterised."
  },
  {
   "property": "C77",
   "status": "proved",
   "theorems": [
    "Mizar.Props.C77_confirmation",
    "Mizar.Props.C77_bar_arrival"
   ],
   "note": "Both strategies for every RSI path returned by the (parameter) indicator, including missing values; mean times between bars are stated as (t_i - t_{i-w})/w. Assumes a maximum difference other than 0."
  },
  {
   "property": "C78",
   "status": "proved",
   "theorems": [
    "Mizar.Props.C78_difference",
    "Mizar.Props.C78_difference_range",
    "Mizar.Props.C78_imbalance",
    "Mizar.Props.C78_volume_types"
   ],
   "note": "Spans from 2 on for the closed forms (span 1 has weight 0 for the past and is covered by the range theorem and C63)."
  },
  {
   "property": "C79",
   "status": "proved",
   "theorems": [
    "Mizar.Props.C79_nonneg",
    "Mizar.Props.C79_affine",
    "Mizar.Props.C79_value"
   ],
   "note": "Values for complete data with windows >= 2; sign and scaling for all data, including missing and infinite prices."
  },
  {
   "property": "C80",
   "status": "proved",
   "theorems": [
    "Mizar.Props.C80_disjoint_writes",
    "Mizar.Props.C80_race",
    "Mizar.Props.C80_barriers",
    "Mizar.Props.C80_signals",
    "Mizar.Props.C80_average_bets",
    "Mizar.Props.C80_csw",
    "Mizar.Props.C80_sadf",
    "Mizar.Props.C80_sdfc",
    "Mizar.Props.C80_trend"
   ],
   "note": "Interleaving semantics with atomic writes and abandoned iterations after an exception; the result of each loop is that of the functional model used by the other claims. A race (two iterations writing one entry) is shown to be schedule dependent in the same semantics."
  },
  {
   "property": "C81",
   "status": "partial",
   "theorems": [
    "Mizar.Props.C81_protocol",
    "Mizar.Props.C81_reports_partial",
    "Mizar.Props.C81_refuted",
    "Mizar.Props.C81_stored",
    "Mizar.Props.C81_trend_scanner_refuted"
   ],
   "note": "Holds for the classes that store parameters under their own names; refuted for triple barrier labels, sample weights, average uniqueness, CUSUM filter, MACD and moving average strategies and the bet sizer (AttributeError), and for the trend scanner after a call without events."
  },
  {
   "property": "C82",
   "status": "partial",
   "theorems": [
    "Mizar.Props.C82_index",
    "Mizar.Props.C82_succeeds",
    "Mizar.Props.C82_fit_transform_partial",
    "Mizar.Props.C82_target_refuted"
   ],
   "note": "Index and columns proved; fit_transform drops the target: refuted for transformers that use it, proved for the others."
  },
  {
   "property": "C83",
   "status": "partial",
   "theorems": [
    "Mizar.Props.C83_weights_partial",
    "Mizar.Props.C83_underscore_refuted"
   ],
   "note": "Proved unless the name of the last step ends with an underscore, where it is refuted. scikit-learn's parameter routing (0.24) is modelled."
  },
  {
   "property": "C84",
   "status": "proved",
   "theorems": [
    "Mizar.Props.C84_volatility",
    "Mizar.Props.C84_labels",
    "Mizar.Props.C84_weights"
   ],
   "note": "For transform as a whole, with the daily volatility of the code and any exponential standard deviation of the returns; the side column must not be the close column. Ideal floats (rounding not modelled)."
  },
  {
   "property": "C85",
   "status": "partial",
   "theorems": [
    "Mizar.Props.C85_clock",
    "Mizar.Props.C85_shift",
    "Mizar.Props.C85_time_unit",
    "Mizar.Props.C85_embargo_partial",
    "Mizar.Props.C85_embargo_refuted"
   ],
   "note": "Clock independence holds for all inputs. Monotonicity in the embargo holds when some sample is predicted after the longer embargo; refuted otherwise because the embargo is then skipped."
  },
  {
   "property": "C86",
   "status": "partial",
   "theorems": [
    "Mizar.Props.C86_out_of_sample",
    "Mizar.Props.C86_returns_partial",
    "Mizar.Props.C86_order_refuted",
    "Mizar.Props.C86_labels_refuted"
   ],
   "note": "Every sample once, out of sample, beside its own target: all inputs with distinct labels for which the function returns; the largest probability is missing as soon as one probability is. Returns for one test fold or all but one. Order of the samples refuted; distinct labels are needed (C86_labels_refuted: repeated labels multiply rows and mix targets). The model is a state with fit, predict and predict_proba as parameters that may raise."
  },
  {
   "property": "C87",
   "status": "partial",
   "theorems": [
    "Mizar.Props.C87_refines",
    "Mizar.Props.C87_missing_not_before_test",
    "Mizar.Props.C87_train_set",
    "Mizar.Props.C87_missing_test_refuted"
   ],
   "note": "Training side holds for all inputs; refines the splitter of C01-C10; the exact train set of every round (C87_train_set); test side refuted."
  },
  {
   "property": "C88",
   "status": "partial",
   "theorems": [
    "Mizar.Props.C88_events_partial",
    "Mizar.Props.C88_bootstrap",
    "Mizar.Props.C88_cross_validation",
    "Mizar.Props.C88_weights",
    "Mizar.Props.C88_any_times",
    "Mizar.Props.C88_one_bar_per_millisecond",
    "Mizar.Props.C88_sub_millisecond_refuted"
   ],
   "note": "For times in whole milliseconds other than the epoch, as in C26 (LabelInput); a single labelled event is refused by get_ind_matrix (C12). Refuted for bars inside one millisecond (C88_sub_millisecond_refuted). C88_any_times: for all increasing times, events start and end at bars and end after they start unless another bar lies in the same millisecond; C88_one_bar_per_millisecond: then the cross validation accepts them."
  },
  {
   "property": "C89",
   "status": "proved",
   "theorems": [
    "Mizar.Props.C89_subset",
    "Mizar.Props.C89_fit_returns_iff",
    "Mizar.Props.C89_duplicate_start_fails"
   ],
   "note": "The generator is assumed to return the requested number of valid positions. With two events starting at the same time a fit can fail (C89_duplicate_start_fails)."
  },
  {
   "property": "C90",
   "status": "partial",
   "theorems": [
    "Mizar.Props.C90_history_partial",
    "Mizar.Props.C90_new_events_ignored_refuted",
    "Mizar.Props.C90_new_events_after_fit",
    "Mizar.Props.C90_repeated_fit_refuted"
   ],
   "note": "Partial: proved for every sequence of fits without set_params (C90_history_partial); false when set_params replaces samples_info_sets (C90_new_events_ignored_refuted, C90_repeated_fit_refuted). C90_new_events_after_fit: after a successful fit that trains estimators, replaced events are looked at."
  },
  {
   "property": "C91",
   "status": "partial",
   "theorems": [
    "Mizar.Props.C91_fewer_classes",
    "Mizar.Props.C91_more_classes",
    "Mizar.Props.C91_out_of_fold_partial",
    "Mizar.Props.C91_partition_partial",
    "Mizar.Props.C91_no_proba",
    "Mizar.Props.C91_unknown_later",
    "Mizar.Props.C91_unknown_first",
    "Mizar.Props.C91_classes_refuted"
   ],
   "note": "Partial because folds whose models saw different numbers of classes break it (C91_classes_refuted). C91_fewer_classes gives the exact frame when no later fold has more classes than the first, C91_more_classes the effect of a fold with more classes than there are columns. Two helper calls of one function with unique times and column names."
  },
  {
   "property": "C92",
   "status": "proved",
   "theorems": [
    "Mizar.Props.C92_check",
    "Mizar.Props.C92_primary"
   ],
   "note": "Labels are numbers (no missing values)."
  },
  {
   "property": "C93",
   "status": "proved",
   "theorems": [
    "Mizar.Props.C93_sdfc",
    "Mizar.Props.C93_sadf_level",
    "Mizar.Props.C93_sadf_martingale"
   ],
   "note": "C93_sdfc: the Chow-type run is unchanged by any factor other than zero. C93_sadf_level: Dickey-Fuller models, factor other than zero, with a constant also any level. C93_sadf_martingale: martingale models, positive factor; sm_poly_1 any factor and level. Exact arithmetic: rounding is outside the model."
  },
  {
   "property": "C94",
   "status": "partial",
   "theorems": [
    "Mizar.Props.C94_cold_shape_partial",
    "Mizar.Props.C94_ignores_overlaps",
    "Mizar.Props.C94_in_bag_rows_refuted",
    "Mizar.Props.C94_warm_start_refuted",
    "Mizar.Props.C94_record",
    "Mizar.Props.C94_unfitted"
   ],
   "note": "C94_record: full, over all histories. C94_cold_shape_partial: shape of estimators_samples_ after a cold fit. That it lists the in-bag rows is refuted for every way of drawing (C94_in_bag_rows_refuted); warm starts lose entries (C94_warm_start_refuted); C94_ignores_overlaps explains why."
  },
  {
   "property": "C95",
   "status": "partial",
   "theorems": [
    "Mizar.Props.C95_mean",
    "Mizar.Props.C95_distribution",
    "Mizar.Props.C95_predict",
    "Mizar.Props.C95_after_failed_fit_refuted",
    "Mizar.Props.C95_raised_parameter_refuted",
    "Mizar.Props.C95_unknown_class"
   ],
   "note": "C95_mean, C95_distribution, C95_predict: full for an object with n_estimators estimators (C21 gives that after every fit that returns). Refuted: after a fit that raised (C95_after_failed_fit_refuted) and when n_estimators is raised after the fit (C95_raised_parameter_refuted). C95_unknown_class: an estimator with a class outside the ensemble raises IndexError."
  },
  {
   "property": "C96",
   "status": "partial",
   "theorems": [
    "Mizar.Props.C96_fit_transform_partial",
    "Mizar.Props.C96_no_fit_refuted",
    "Mizar.Props.C96_trend_scanner_refuted",
    "Mizar.Props.C96_union",
    "Mizar.Props.C96_union_refuted"
   ],
   "note": "C96_fit_transform_partial and C96_union: the classes with a fit. Refuted for the classes without fit (C96_no_fit_refuted), unions containing them (C96_union_refuted) and TrendScannerLabeling with a target (C96_trend_scanner_refuted)."
  },
  {
   "property": "C97",
   "status": "proved",
   "theorems": [
    "Mizar.Props.C97_clock_matrix",
    "Mizar.Props.C97_clock_uniqueness",
    "Mizar.Props.C97_clock_decay",
    "Mizar.Props.C97_clock_fit",
    "Mizar.Props.C97_bars",
    "Mizar.Props.C97_order",
    "Mizar.Props.C97_order_decay"
   ],
   "note": "C97_clock_*: every strictly increasing map of the times; C97_bars: only the set of bars between the first start and the last end matters; C97_order and C97_order_decay: permuted events."
  },
  {
   "property": "C98",
   "status": "proved",
   "theorems": [
    "Mizar.Props.C98_choice",
    "Mizar.Props.C98_normalised",
    "Mizar.Props.C98_probability",
    "Mizar.Props.C98_generator",
    "Mizar.Props.C98_run",
    "Mizar.Props.C98_build",
    "Mizar.Props.C98_features",
    "Mizar.Props.C98_fit"
   ],
   "note": "C98_choice and C98_probability: one draw; C98_normalised: probabilities that do not add up to 1; C98_generator, C98_run: the whole sequential bootstrap on a stateful generator; C98_build, C98_features, C98_fit: the estimators of a fit. Assumed of the generator: ValidGen."
  },
  {
   "property": "C99",
   "status": "partial",
   "theorems": [
    "Mizar.Props.C99_labels",
    "Mizar.Props.C99_classes",
    "Mizar.Props.C99_weighted_fit",
    "Mizar.Props.C99_score_partial",
    "Mizar.Props.C99_unseen_row",
    "Mizar.Props.C99_score_refuted"
   ],
   "note": "The last part of the statement fails for rows without out-of-bag estimator (C99_score_refuted, C99_unseen_row) and is proved for data where each row has one (C99_score_partial). The rest is proved in full (C99_labels, C99_classes, C99_weighted_fit)."
  },
  {
   "property": "C100",
   "status": "proved",
   "theorems": [
    "Mizar.Props.C100_weighted_variance",
    "Mizar.Props.C100_span_one",
    "Mizar.Props.C100_not_negative",
    "Mizar.Props.C100_daily_volatility",
    "Mizar.Props.C100_flat_window",
    "Mizar.Props.C100_first_move"
   ],
   "note": "C100_weighted_variance is the recursion for any observations, C100_daily_volatility the column for positive prices, C100_not_negative holds for any bars and is the hypothesis of C26 and C27; C100_flat_window and C100_first_move compose it with the labelling. The recursion of pandas is assumed library behaviour (Py/Ewm)."
  },
  {
   "property": "C101",
   "status": "proved",
   "theorems": [
    "Mizar.Props.C101_return_sign",
    "Mizar.Props.C101_return_monotone",
    "Mizar.Props.C101_return_error",
    "Mizar.Props.C101_event",
    "Mizar.Props.C101_exact"
   ],
   "note": "Prices and intermediate results are binary floats of any precision p (53 for float64); exponents are unbounded. C101_exact links the rounded functions without rounding to the exact model of C25-C32."
  },
  {
   "property": "C102",
   "status": "proved",
   "theorems": [
    "Mizar.Props.C102_range",
    "Mizar.Props.C102_error",
    "Mizar.Props.C102_exact"
   ],
   "note": "Exponents are unbounded; the sum runs in row order as in the sparse product. C102_exact links the function without rounding to the exact model of C13."
  },
  {
   "property": "C103",
   "status": "proved",
   "theorems": [
    "Mizar.Props.C103_decay",
    "Mizar.Props.C103_exact"
   ],
   "note": "Exponents are unbounded. C103_exact links the functions without rounding to the exact model of C43."
  },
  {
   "property": "C104",
   "status": "proved",
   "theorems": [
    "Mizar.Props.C104_run",
    "Mizar.Props.C104_uniqueness",
    "Mizar.Props.C104_uniqueness_error",
    "Mizar.Props.C104_probabilities",
    "Mizar.Props.C104_exact"
   ],
   "note": "Exponents are unbounded. C104_exact links the uniqueness without rounding to the exact model of C14. The check of the generator (compensated sum, tolerance 2^-26) is modelled from NumPy and part of the trusted base."
  },
  {
   "property": "C105",
   "status": "proved",
   "theorems": [
    "Mizar.Props.C105_metalabels",
    "Mizar.Props.C105_training"
   ],
   "note": "Estimators and transformers are parameters (functions of the frame they are given)."
  },
  {
   "property": "C106",
   "status": "proved",
   "theorems": [
    "Mizar.Props.C106_union",
    "Mizar.Props.C106_dataset",
    "Mizar.Props.C106_dataset_values",
    "Mizar.Props.C106_unfitted",
    "Mizar.Props.C106_side_and_size",
    "Mizar.Props.C106_bet_sizing",
    "Mizar.Props.C106_bet_construction",
    "Mizar.Props.C106_bet_step",
    "Mizar.Props.C106_fit_arguments",
    "Mizar.Props.C106_path_answers",
    "Mizar.Props.C106_labeling",
    "Mizar.Props.C106_docstring",
    "Mizar.Props.C106_overlap",
    "Mizar.Props.C106_empty_row",
    "Mizar.Props.C106_position_columns",
    "Mizar.Props.C106_trend_scanner",
    "Mizar.Props.C106_set_params"
   ],
   "note": "Exceptions are modelled by their class only, not by their message. C106_bet_step, C106_fit_arguments, C106_path_answers: discretising without step, arguments of a pipeline fit, models that answer with other shapes. C106_overlap, C106_empty_row, C106_position_columns, C106_trend_scanner, C106_set_params: frames that end too early, rows without probabilities, positions without columns, windows of the trend scanner, unknown parameters."
  },
  {
   "property": "C107",
   "status": "proved",
   "theorems": [
    "Mizar.Props.C107_events",
    "Mizar.Props.C107_repeated",
    "Mizar.Props.C107_grid",
    "Mizar.Props.C107_exact",
    "Mizar.Props.C107_threshold",
    "Mizar.Props.C107_mirror",
    "Mizar.Props.C107_scale",
    "Mizar.Props.C107_decimal"
   ],
   "note": "Rounding is to nearest-even with p bits and unbounded exponent (no overflow, no subnormal numbers); prices and threshold are numbers, missing and infinite prices are treated in C34-C36."
  },
  {
   "property": "C108",
   "status": "proved",
   "theorems": [
    "Mizar.Props.C108_no_class",
    "Mizar.Props.C108_one_class",
    "Mizar.Props.C108_range",
    "Mizar.Props.C108_chance",
    "Mizar.Props.C108_monotone",
    "Mizar.Props.C108_discretise",
    "Mizar.Props.C108_average",
    "Mizar.Props.C108_exact"
   ],
   "note": "norm.cdf and ** 0.5 are parameters: cdf in [0,1] except at NaN and 1/2 at 0, root positive on positive numbers and 0 at 0, both monotone where monotonicity is claimed (assumptions about SciPy and NumPy, not proved). Rounding has unbounded exponent; the compiled np.mean adds from left to right. C108_no_class: ZeroDivisionError exactly for zero classes; C108_one_class: with one class a certain prediction raises AssertionError."
  },
  {
   "property": "C109",
   "status": "proved",
   "theorems": [
    "Mizar.Props.C109_max_samples",
    "Mizar.Props.C109_decimal_refuted",
    "Mizar.Props.C109_max_features",
    "Mizar.Props.C109_batches",
    "Mizar.Props.C109_exact",
    "Mizar.Props.C109_batches_refuted"
   ],
   "note": "Proved as stated; the refuted theorems show that its conditions are needed or that exceptions it names do occur. Rounding has unbounded exponent (a product below 2^-1074 is not flushed to zero). The refuted theorems give the fractions where the truncated product differs from the decimal one, and a length above 2^53 where a batch is lost; C109_batches shows that the exact ceiling used in the bootstrap model is what the code computes below 2^53."
  },
  {
   "property": "C110",
   "status": "partial",
   "theorems": [
    "Mizar.Props.C110_wider_partial",
    "Mizar.Props.C110_longer",
    "Mizar.Props.C110_any_times",
    "Mizar.Props.C110_longer_any_times",
    "Mizar.Props.C110_epoch_refuted",
    "Mizar.Props.C110_sub_millisecond_refuted"
   ],
   "note": "C110_wider_partial, C110_longer: hypotheses as in C26_event_end_partial (times are whole milliseconds other than the epoch, positive or missing prices, non-negative volatility); both calls see the same volatility; with metalabeling some event of the frame with the wider barriers ends (otherwise that call raises ValueError, C30_no_event_ends). C110_any_times: barriers moved away, all increasing times without a bar in the first millisecond of 1970; C110_longer_any_times: all increasing times. Refuted at the epoch (C110_epoch_refuted) and, for a later expiration, inside a millisecond (C110_sub_millisecond_refuted)."
  },
  {
   "property": "C111",
   "status": "proved",
   "theorems": [
    "Mizar.Props.C111_joint",
    "Mizar.Props.C111_expected",
    "Mizar.Props.C111_fresh"
   ],
   "note": "choice is the inverse distribution function of NumPy as in C98; the uniform numbers are real, independent and exact arithmetic is used for the probabilities (C104 bounds the rounding)."
  },
  {
   "property": "C112",
   "status": "proved",
   "theorems": [
    "Mizar.Props.C112_mean",
    "Mizar.Props.C112_predict",
    "Mizar.Props.C112_votes",
    "Mizar.Props.C112_exact",
    "Mizar.Props.C112_jobs_refuted",
    "Mizar.Props.C112_unanimous_refuted"
   ],
   "note": "Proved as stated; the refuted theorems show that its conditions are needed or that exceptions it names do occur. The refuted theorems show that independence of n_jobs, proved in exact arithmetic (C95), fails in floating point. Rounding has unbounded exponent; predict_proba is inherited from scikit-learn 0.24 and modelled from its text."
  },
  {
   "property": "C113",
   "status": "proved",
   "theorems": [
    "Mizar.Props.C113_no_missed_move",
    "Mizar.Props.C113_quiet",
    "Mizar.Props.C113_few"
   ],
   "note": "Finite prices; thresholds are not negative (a negative one selects every bar, C36)."
  },
  {
   "property": "C114",
   "status": "partial",
   "theorems": [
    "Mizar.Props.C114_more_events_partial",
    "Mizar.Props.C114_separate_events",
    "Mizar.Props.C114_separate_rows",
    "Mizar.Props.C114_more_events_refuted"
   ],
   "note": "False in general: the times of an added event can add rows at which the other events are less crowded (C114_more_events_refuted). Proved if the added events start and end at bars, and for added events that do not overlap (no condition on bars)."
  },
  {
   "property": "C115",
   "status": "proved",
   "theorems": [
    "Mizar.Props.C115_predict",
    "Mizar.Props.C115_predict_proba",
    "Mizar.Props.C115_side_and_size",
    "Mizar.Props.C115_causal_predictor",
    "Mizar.Props.C115_row_wise",
    "Mizar.Props.C115_of_predictions",
    "Mizar.Props.C115_cross_over",
    "Mizar.Props.C115_strategies",
    "Mizar.Props.C115_union",
    "Mizar.Props.C115_bet_sizer",
    "Mizar.Props.C115_same_sizer",
    "Mizar.Props.C115_own_sizer"
   ],
   "note": "Both calls are assumed to return a result; which inputs raise is the subject of other claims. The hypotheses on the parts are proved for row-wise models, the cross-over predictor, the strategies on causal indicators, feature unions and BetSizingFromProbabilities (C115_row_wise, C115_cross_over, C115_strategies, C115_union, C115_bet_sizer)."
  },
  {
   "property": "C116",
   "status": "partial",
   "theorems": [
    "Mizar.Props.C116_any_times",
    "Mizar.Props.C116_known_at_end_partial",
    "Mizar.Props.C116_with_volatility_partial",
    "Mizar.Props.C116_training_labels",
    "Mizar.Props.C116_daily_volatility",
    "Mizar.Props.C116_last_bar_refuted",
    "Mizar.Props.C116_sub_millisecond_refuted"
   ],
   "note": "False for a frame that stops at the end of the event, because the last bar is never searched (C116_last_bar_refuted); proved for every other frame, and for the training labels of the cross validation without restriction (C116_training_labels). Both for whole-millisecond times; refuted for bars inside one millisecond (C116_sub_millisecond_refuted). C116_any_times: for all increasing times the row is decided by the bars up to the end of the millisecond of its end."
  },
  {
   "property": "C117",
   "status": "partial",
   "theorems": [
    "Mizar.Props.C117_window_partial",
    "Mizar.Props.C117_further_bars",
    "Mizar.Props.C117_event_end_refuted"
   ],
   "note": "Proved: with step one the row depends on the look-forward window only (C117_window_partial, C117_further_bars). False: that the bars up to the reported event end decide the label (C117_event_end_refuted). Other steps depend on uninitialised memory (C70_refuted)."
  },
  {
   "property": "C118",
   "status": "proved",
   "theorems": [
    "Mizar.Props.C118_primary",
    "Mizar.Props.C118_metalabeling",
    "Mizar.Props.C118_row",
    "Mizar.Props.C118_purged_training_set"
   ],
   "note": "The transformers (and the primary model for the metalabeling set) are parameters assumed causal; C58 and C115 prove this for the ones in the repository."
  },
  {
   "property": "C119",
   "status": "proved",
   "theorems": [
    "Mizar.Props.C119_position",
    "Mizar.Props.C119_pipeline_signal",
    "Mizar.Props.C119_live"
   ],
   "note": "The parts of the pipeline are parameters assumed causal; C115 proves this for the ones in the repository. Both calls are assumed to return a position; which calls raise is C51 and C53."
  },
  {
   "property": "C120",
   "status": "partial",
   "theorems": [
    "Mizar.Props.C120_known_partial",
    "Mizar.Props.C120_no_look_ahead_partial",
    "Mizar.Props.C120_bet_sizer_partial",
    "Mizar.Props.C120_sub_millisecond_refuted",
    "Mizar.Props.C120_any_times"
   ],
   "note": "For times on whole milliseconds and bets that do not end before they start; no condition on 1970. Refuted within a millisecond. C120_any_times: for all times, nothing looks further ahead than the end of the millisecond."
  },
  {
   "property": "C121",
   "status": "partial",
   "theorems": [
    "Mizar.Props.C121_restart",
    "Mizar.Props.C121_history",
    "Mizar.Props.C121_missing_price",
    "Mizar.Props.C121_rounded_grid_partial",
    "Mizar.Props.C121_rounded_refuted"
   ],
   "note": "Proved in exact arithmetic for all paths (C121_restart, C121_history, C121_missing_price). In floating point refuted, and proved for prices in whole ticks of a power of two with at most 52 bits (C121_rounded_grid_partial)."
  },
  {
   "property": "C122",
   "status": "partial",
   "theorems": [
    "Mizar.Props.C122_any_times",
    "Mizar.Props.C122_uniqueness",
    "Mizar.Props.C122_training_sample",
    "Mizar.Props.C122_return_weight_partial",
    "Mizar.Props.C122_time_decay_refuted",
    "Mizar.Props.C122_sub_millisecond_refuted"
   ],
   "note": "Proved for the average uniqueness (C122_uniqueness, C122_training_sample); for the weights by return with whole milliseconds and rows in time order (C122_return_weight_partial). Refuted for the weights by time decay and below the millisecond. C122_any_times: for all times, the weight by return is known at the end of the millisecond in which the event ends."
  },
  {
   "property": "C123",
   "status": "partial",
   "theorems": [
    "Mizar.Props.C123_order",
    "Mizar.Props.C123_divided",
    "Mizar.Props.C123_bet_sizer",
    "Mizar.Props.C123_rounded_refuted",
    "Mizar.Props.C123_return_weights_refuted"
   ],
   "note": "Proved in exact arithmetic for the bets (C123_order, C123_divided, C123_bet_sizer). Refuted in floating point and for the weights by return."
  },
  {
   "property": "C124",
   "status": "proved",
   "theorems": [
    "Mizar.Props.C124_opposite_bets",
    "Mizar.Props.C124_plain_labels",
    "Mizar.Props.C124_mirrored_path"
   ],
   "note": "Proved for all inputs (C124_opposite_bets, C124_plain_labels, C124_mirrored_path)."
  },
  {
   "property": "C125",
   "status": "partial",
   "theorems": [
    "Mizar.Props.C125_z_score",
    "Mizar.Props.C125_local_max",
    "Mizar.Props.C125_roll",
    "Mizar.Props.C125_ranges",
    "Mizar.Props.C125_lambdas",
    "Mizar.Props.C125_vpin",
    "Mizar.Props.C125_strategies",
    "Mizar.Props.C125_cross_over_partial",
    "Mizar.Props.C125_ewm_forgets",
    "Mizar.Props.C125_difference_forgets",
    "Mizar.Props.C125_ewm_refuted",
    "Mizar.Props.C125_filled_refuted",
    "Mizar.Props.C125_local",
    "Mizar.Props.C125_sharp"
   ],
   "note": "Proved for all rolling features, with the exact number of bars (C125_z_score, C125_local_max, C125_roll, C125_ranges, C125_lambdas, C125_vpin, C125_strategies, C125_sharp); the unfilled crossover needs a unique index (C125_cross_over_partial). Refuted for the filled crossover and for exponentially weighted means, which never forget (C125_filled_refuted, C125_ewm_refuted); a geometric bound is proved for the means instead."
  },
  {
   "property": "C126",
   "status": "partial",
   "theorems": [
    "Mizar.Props.C126_min_length",
    "Mizar.Props.C126_history",
    "Mizar.Props.C126_penalty_refuted",
    "Mizar.Props.C126_no_constant_refuted",
    "Mizar.Props.C126_quadratic_refuted",
    "Mizar.Props.C126_power_refuted"
   ],
   "note": "min_length: proved for all models (C126_min_length). History: proved without a trend, with a trend and a constant, and for the polynomial and exponential sub- and super-martingale tests without penalty (C126_history), where a change of the origin of the trend is a change of regressors that keeps the t-value. Refuted with a penalty (C126_penalty_refuted), for the linear and the quadratic trend without a constant (C126_no_constant_refuted, C126_quadratic_refuted) and for sm_power with every penalty (C126_power_refuted)."
  },
  {
   "property": "C127",
   "status": "partial",
   "theorems": [
    "Mizar.Props.C127_twice",
    "Mizar.Props.C127_steps_partial",
    "Mizar.Props.C127_mean_refuted",
    "Mizar.Props.C127_no_news_refuted"
   ],
   "note": "Aligning twice: proved without restriction on the values (C127_twice; leading index increasing and after 1700). In steps: proved for minimum and maximum without missing values and with news at every time of the fine index (C127_steps_partial); refuted for means and without news."
  },
  {
   "property": "C128",
   "status": "proved",
   "theorems": [
    "Mizar.Props.C128_order",
    "Mizar.Props.C128_exchange",
    "Mizar.Props.C128_more",
    "Mizar.Props.C128_prediction_stays",
    "Mizar.Props.C128_sharp"
   ],
   "note": "Exact arithmetic; base estimators as in C95 (known classes increasing, probabilities non-negative and adding up to one). C128_sharp shows the bounds are reached."
  },
  {
   "property": "C129",
   "status": "partial",
   "theorems": [
    "Mizar.Props.C129_draws",
    "Mizar.Props.C129_history",
    "Mizar.Props.C129_repeat_refuted",
    "Mizar.Props.C129_warm_start_refuted",
    "Mizar.Props.C129_int_repeatable"
   ],
   "note": "Proved: number of draws and refinement to the integer case (C129_draws), sequences of cold fits (C129_history), integers (C129_int_repeatable). Refuted for a shared generator with numbers that do not repeat and base estimators that depend on their seed."
  },
  {
   "property": "C130",
   "status": "partial",
   "theorems": [
    "Mizar.Props.C130_interleaved",
    "Mizar.Props.C130_never_wrong_partial",
    "Mizar.Props.C130_other_rows",
    "Mizar.Props.C130_disturbed_refuted"
   ],
   "note": "Proved: all generators over the rows of the time series, any order (C130_interleaved); generators over other data give no round (C130_other_rows); whatever runs beside it, a generator never gives a wrong round (C130_never_wrong_partial). Refuted: a failing split over other data breaks off a running one."
  },
  {
   "property": "C131",
   "status": "partial",
   "theorems": [
    "Mizar.Props.C131_exact",
    "Mizar.Props.C131_exact_vpin",
    "Mizar.Props.C131_grid",
    "Mizar.Props.C131_drift",
    "Mizar.Props.C131_vpin_grid_partial",
    "Mizar.Props.C131_vpin_drift",
    "Mizar.Props.C131_one_sided",
    "Mizar.Props.C131_scale",
    "Mizar.Props.C131_above_one_refuted",
    "Mizar.Props.C131_negative_refuted",
    "Mizar.Props.C131_quiet_refuted"
   ],
   "note": "Proved: without rounding the running sums are the window sums (C131_exact, C131_exact_vpin); on a grid sums are exact and VPIN is the exact quotient rounded once, in [0,1] (C131_grid, C131_vpin_grid_partial); in general error bounds for sums and VPIN (C131_drift, C131_vpin_drift); one-sided trading gives 1 (C131_one_sided); independence of the unit (C131_scale). Missing: the range for volumes off the grid, which is refuted (above 1, negative, infinite)."
  },
  {
   "property": "C132",
   "status": "partial",
   "theorems": [
    "Mizar.Props.C132_exact",
    "Mizar.Props.C132_sign",
    "Mizar.Props.C132_drift",
    "Mizar.Props.C132_ticks_partial",
    "Mizar.Props.C132_margin_partial",
    "Mizar.Props.C132_scale",
    "Mizar.Props.C132_equal_averages_refuted",
    "Mizar.Props.C132_flat_refuted",
    "Mizar.Props.C132_beta_refuted"
   ],
   "note": "Proved: without rounding the signals of C-model crossOver (C132_exact); sign of means for every rounding (C132_sign); error bound (C132_drift); exact signals for prices in ticks of a power of two (C132_ticks_partial) and for averages further apart than the error (C132_margin_partial); independence of the unit (C132_scale). Missing: prices off the grid with close averages, refuted by three witnesses."
  },
  {
   "property": "C133",
   "status": "partial",
   "theorems": [
    "Mizar.Props.C133_exact",
    "Mizar.Props.C133_exact_zscore",
    "Mizar.Props.C133_nonneg",
    "Mizar.Props.C133_drift",
    "Mizar.Props.C133_constant",
    "Mizar.Props.C133_scale",
    "Mizar.Props.C133_outlier_refuted",
    "Mizar.Props.C133_still_refuted",
    "Mizar.Props.C133_order_refuted",
    "Mizar.Props.C133_infinite_refuted"
   ],
   "note": "Proved: without rounding the variances and z-scores of the model of RollingZScoreTransformer (C133_exact, C133_exact_zscore); presence and sign for every rounding (C133_nonneg); error bound (C133_drift); variance 0 for one-valued columns (C133_constant); independence of the unit (C133_scale). That the variance depends only on its window is refuted by three witnesses, that z-scores of constant columns are missing by a fourth."
  },
  {
   "property": "C134",
   "status": "partial",
   "theorems": [
    "Mizar.Props.C134_exact",
    "Mizar.Props.C134_constant",
    "Mizar.Props.C134_sign",
    "Mizar.Props.C134_drift",
    "Mizar.Props.C134_difference",
    "Mizar.Props.C134_scale",
    "Mizar.Props.C134_stuck_refuted",
    "Mizar.Props.C134_outside_refuted"
   ],
   "note": "Proved: without rounding the model of ExponentialWeightedMovingAverageDifference (C134_exact); constant columns for every rounding (C134_constant); sign (C134_sign); error bound independent of the position for means (C134_drift) and differences with their sign (C134_difference); independence of the unit (C134_scale). That means lie between the numbers and approach a price at rest is refuted by two witnesses."
  },
  {
   "property": "C135",
   "status": "partial",
   "theorems": [
    "Mizar.Props.C135_exact",
    "Mizar.Props.C135_zero",
    "Mizar.Props.C135_drift",
    "Mizar.Props.C135_daily_variance",
    "Mizar.Props.C135_volatility",
    "Mizar.Props.C135_constant",
    "Mizar.Props.C135_unit",
    "Mizar.Props.C135_gap_refuted"
   ],
   "note": "Proved: without rounding the exact model (C135_exact); sign and when the variance is 0 (C135_zero, at the level of prices C135_constant); error bounds independent of the position for variances of complete returns (C135_drift), for the column from prices including the rounding of the returns (C135_daily_variance), and for the volatility with any accurate square root (C135_volatility); independence of the unit (C135_unit). That missing returns change nothing but weights is refuted by a witness."
  },
  {
   "property": "C136",
   "status": "proved",
   "theorems": [
    "Mizar.Props.C136_measure",
    "Mizar.Props.C136_flat",
    "Mizar.Props.C136_trend",
    "Mizar.Props.C136_scale",
    "Mizar.Props.C136_kyle_sign",
    "Mizar.Props.C136_kyle",
    "Mizar.Props.C136_trend_refuted",
    "Mizar.Props.C136_memory_refuted",
    "Mizar.Props.C136_exact",
    "Mizar.Props.C136_exact_columns",
    "Mizar.Props.C136_drift",
    "Mizar.Props.C136_prices"
   ],
   "note": "Proved as stated; the refuted theorems show that its conditions are needed or that exceptions it names do occur. Proved: without rounding the exact models (C136_exact, C136_exact_columns); error bounds of the rolling covariance (C136_drift), of the covariance of price changes including the rounding of the differences (C136_prices), of the measure for any accurate square root (C136_measure); zero on constant windows of series in ticks (C136_flat) and on steady trends (C136_trend); units (C136_scale); sign and error bound of Kyle's lambda (C136_kyle_sign, C136_kyle). That a steady trend has measure zero for all prices, and that the measure depends on its window only, are refuted by witnesses."
  },
  {
   "property": "C137",
   "status": "proved",
   "theorems": [
    "Mizar.Props.C137_sigma",
    "Mizar.Props.C137_missing_refuted",
    "Mizar.Props.C137_zero_refuted",
    "Mizar.Props.C137_exact",
    "Mizar.Props.C137_sign",
    "Mizar.Props.C137_range",
    "Mizar.Props.C137_missing",
    "Mizar.Props.C137_spread_missing",
    "Mizar.Props.C137_flat",
    "Mizar.Props.C137_units",
    "Mizar.Props.C137_bar",
    "Mizar.Props.C137_parkinson",
    "Mizar.Props.C137_beta",
    "Mizar.Props.C137_spread_defined",
    "Mizar.Props.C137_spread",
    "Mizar.Props.C137_lambda"
   ],
   "note": "Proved as stated; the refuted theorems show that its conditions are needed or that exceptions it names do occur. Proved: without rounding the exact models (C137_exact); signs (C137_sign), range of spread and Beckers-Parkinson volatility (C137_range), missing values (C137_missing, C137_spread_missing); error bounds for one bar (C137_bar), Parkinson (C137_parkinson), beta (C137_beta), the spread (C137_spread), the Beckers-Parkinson volatility (C137_sigma), Amihud and Hasbrouck (C137_lambda); the spread is defined while the bars are wide enough (C137_spread_defined); flat markets (C137_flat); units (C137_units). That a market flat within its windows has the spread 0, and that it has a spread at all, are refuted by witnesses in double precision."
  },
  {
   "property": "C138",
   "status": "proved",
   "theorems": [
    "Mizar.Props.C138_exact",
    "Mizar.Props.C138_weights",
    "Mizar.Props.C138_flat",
    "Mizar.Props.C138_local",
    "Mizar.Props.C138_sign",
    "Mizar.Props.C138_error",
    "Mizar.Props.C138_left_to_right",
    "Mizar.Props.C138_returned_refuted"
   ],
   "note": "Proved as stated; the refuted theorems show that its conditions are needed or that exceptions it names do occur. Proved: without rounding the model of C42 (C138_exact); closed form, so weights are present and not negative (C138_weights, C138_sign); error bound for every order of addition (C138_error), in particular from left to right (C138_left_to_right); exact zero for a price that does not move (C138_flat); locality (C138_local); missing ends raise (C138_sign). That an event whose exact weight is 0 has weight 0 is refuted by a witness in double precision (C138_returned_refuted)."
  },
  {
   "property": "C139",
   "status": "proved",
   "theorems": [
    "Mizar.Props.C139_exact",
    "Mizar.Props.C139_confirmation_margin",
    "Mizar.Props.C139_confirmation_grid",
    "Mizar.Props.C139_confirmation_ticks",
    "Mizar.Props.C139_still_refuted",
    "Mizar.Props.C139_arrival_direction",
    "Mizar.Props.C139_steady",
    "Mizar.Props.C139_arrival_margin"
   ],
   "note": "Proved as stated; the refuted theorems show that its conditions are needed or that exceptions it names do occur. Proved: without rounding the models of C77 (C139_exact); exact signals away from ties (C139_confirmation_margin, C139_arrival_margin) and on ticks (C139_confirmation_ticks; on any grid no false signals, C139_confirmation_grid); direction of the arrival signal (C139_arrival_direction); evenly spaced bars (C139_steady). That an RSI which does not move gives no confirmation signal is refuted in double precision (C139_still_refuted)."
  },
  {
   "property": "C140",
   "status": "proved",
   "theorems": [
    "Mizar.Props.C140_exact",
    "Mizar.Props.C140_imbalance_mirror",
    "Mizar.Props.C140_imbalance_still",
    "Mizar.Props.C140_imbalance_balanced",
    "Mizar.Props.C140_imbalance_error",
    "Mizar.Props.C140_normalised",
    "Mizar.Props.C140_reversion_direction",
    "Mizar.Props.C140_reversion_monotone",
    "Mizar.Props.C140_reversion_margin",
    "Mizar.Props.C140_reversion_scale",
    "Mizar.Props.C140_threshold_refuted",
    "Mizar.Props.C140_local_max",
    "Mizar.Props.C140_macd"
   ],
   "note": "Proved as stated; the refuted theorems show that its conditions are needed or that exceptions it names do occur. Proved: without rounding the models of C76-C78 (C140_exact); mirror, exact zeros and error of the imbalance (C140_imbalance_mirror, _still, _balanced, _error); error of the normalised difference (C140_normalised); direction, monotonicity, margin and scale of mean reversion (C140_reversion_*); local maximum (C140_local_max); MACD crossings (C140_macd). That the mean reversion signal is exact at the threshold is refuted (C140_threshold_refuted)."
  },
  {
   "property": "C141",
   "status": "proved",
   "theorems": [
    "Mizar.Props.C141_features",
    "Mizar.Props.C141_predict",
    "Mizar.Props.C141_side_and_size",
    "Mizar.Props.C141_dataset_primary",
    "Mizar.Props.C141_dataset_metalabeling",
    "Mizar.Props.C141_no_metalabeling_features"
   ],
   "note": "Proved: features (C141_features), labels and probabilities (C141_predict), side and size (C141_side_and_size), both training sets with exactly their times (C141_dataset_primary, C141_dataset_metalabeling). The conditions are those under which C47-C49 and C106 do not raise; with predictions but without probabilities as metalabeling features the condition that the metalabeling rows lie within the primary ones is needed (C49_predictions_only_raises). C141_no_metalabeling_features: with predictions as features and no complete metalabeling row, ValueError."
  },
  {
   "property": "C142",
   "status": "proved",
   "theorems": [
    "Mizar.Props.C142_exact",
    "Mizar.Props.C142_error",
    "Mizar.Props.C142_decision",
    "Mizar.Props.C142_constant_start",
    "Mizar.Props.C142_two_sided",
    "Mizar.Props.C142_mirror",
    "Mizar.Props.C142_scale"
   ],
   "note": "Proved: error of statistic and critical value (C142_error), the decision (C142_decision), what raises (C142_constant_start), two-sided and one-sided (C142_two_sided), sign (C142_mirror), unit (C142_scale); without rounding the model is the one of C66 (C142_exact). Overflow, underflow and the sign of zero are not modelled; the length of the series is below 2^p so that whole numbers are exact."
  },
  {
   "property": "C143",
   "status": "proved",
   "theorems": [
    "Mizar.Props.C143_exact",
    "Mizar.Props.C143_trend_scale",
    "Mizar.Props.C143_trend_mirror",
    "Mizar.Props.C143_sdfc",
    "Mizar.Props.C143_sadf_mirror",
    "Mizar.Props.C143_sadf_scale",
    "Mizar.Props.C143_reference",
    "Mizar.Props.C143_level_refuted"
   ],
   "note": "Proved as stated; the refuted theorems show that its conditions are needed or that exceptions it names do occur. Proved: unit and sign of the trend scanner (C143_trend_scale, C143_trend_mirror), of the Chow-type test (C143_sdfc), of the explosiveness tests (C143_sadf_mirror, C143_sadf_scale); an arithmetic that meets the assumptions (C143_reference); without rounding the models are those of C67, C68 and C71 (C143_exact). Refuted: that the level of a price that does not move is without influence (C143_level_refuted). Assumed of the linear algebra library: FairDot, FairInv (Spec/RoundedOls). Overflow, underflow and the sign of zero are not modelled; no bound on the error of t-values is stated, it would depend on the condition of the gram matrix."
  },
  {
   "property": "C144",
   "status": "proved",
   "theorems": [
    "Mizar.Props.C144_exact",
    "Mizar.Props.C144_range",
    "Mizar.Props.C144_error",
    "Mizar.Props.C144_scale",
    "Mizar.Props.C144_one_refuted"
   ],
   "note": "Proved as stated; the refuted theorems show that its conditions are needed or that exceptions it names do occur. Proved: range, monotonicity and definedness (C144_range), error (C144_error), unit (C144_scale); without rounding the model is the one of C74 (C144_exact). Refuted: that only numbers from b on have probability one (C144_one_refuted). Overflow and underflow are not modelled. Sampling (rvs) inverts the function numerically inside scipy and is not modelled."
  },
  {
   "property": "C145",
   "status": "proved",
   "theorems": [
    "Mizar.Props.C145_exact",
    "Mizar.Props.C145_min_max",
    "Mizar.Props.C145_error",
    "Mizar.Props.C145_range",
    "Mizar.Props.C145_scale",
    "Mizar.Props.C145_mirror",
    "Mizar.Props.C145_flat_refuted"
   ],
   "note": "Proved as stated; the refuted theorems show that its conditions are needed or that exceptions it names do occur. Proved: same errors and distance to the exact alignment (C145_error), no rounding for minimum and maximum (C145_min_max), interval for at most two rows (C145_range), power of two and sign (C145_scale, C145_mirror); without rounding the model is the one of C44 (C145_exact). Refuted: that the mean of three or more equal values is that value (C145_flat_refuted). Overflow, underflow and the sign of zero are not modelled."
  },
  {
   "property": "C146",
   "status": "proved",
   "theorems": [
    "Mizar.Props.C146_exact",
    "Mizar.Props.C146_unbounded",
    "Mizar.Props.C146_numbers",
    "Mizar.Props.C146_events",
    "Mizar.Props.C146_threshold",
    "Mizar.Props.C146_mirror",
    "Mizar.Props.C146_scale",
    "Mizar.Props.C146_no_threshold"
   ],
   "note": "Proved: same selection as with an unbounded exponent (C146_unbounded, C146_numbers), events (C146_events), threshold (C146_threshold), sign (C146_mirror), unit (C146_scale), infinite or missing threshold (C146_no_threshold), exact model without rounding (C146_exact). Rounding to a nearest number of the format is proved (Fmt.round_nearest in Lemmas/Double)."
  },
  {
   "property": "C147",
   "status": "proved",
   "theorems": [
    "Mizar.Props.C147_formats",
    "Mizar.Props.C147_return",
    "Mizar.Props.C147_unbounded",
    "Mizar.Props.C147_event",
    "Mizar.Props.C147_exact",
    "Mizar.Props.C147_overflow",
    "Mizar.Props.C147_barrier_refuted"
   ],
   "note": "Proved as stated; the refuted theorems show that its conditions are needed or that exceptions it names do occur. Proved: return and its sign (C147_return), end and label as with an unbounded exponent (C147_unbounded) and as the prices deserve (C147_event), an overflowing barrier is no barrier (C147_overflow), exact model without rounding (C147_exact), the usual formats (C147_formats). C147_barrier_refuted shows that the condition on the barriers is needed in C147_unbounded."
  },
  {
   "property": "C148",
   "status": "proved",
   "theorems": [
    "Mizar.Props.C148_label",
    "Mizar.Props.C148_monotone",
    "Mizar.Props.C148_return_refuted",
    "Mizar.Props.C148_fails",
    "Mizar.Props.C148_line"
   ],
   "note": "Proved as stated; the refuted theorems show that its conditions are needed or that exceptions it names do occur. Proved: label as sign of the weighted pairwise moves (C148_label), monotone prices (C148_monotone), exactly when transform raises (C148_fails), straight windows under NumPy's error model (C148_line). Refuted: label and return of a row have the same sign (C148_return_refuted)."
  },
  {
   "property": "C149",
   "status": "partial",
   "theorems": [
    "Mizar.Props.C149_training_partial",
    "Mizar.Props.C149_prediction_partial",
    "Mizar.Props.C149_own_side_refuted",
    "Mizar.Props.C149_names"
   ],
   "note": "C149_training_partial, C149_prediction_partial: all own features except one named primary_side_pred while the predicted side is a feature; C149_names: exactly when the names are different. C149_own_side_refuted: the own feature of this name is replaced by the predicted side."
  },
  {
   "property": "C150",
   "status": "proved",
   "theorems": [
    "Mizar.Props.C150_format",
    "Mizar.Props.C150_agrees",
    "Mizar.Props.C150_average_uniqueness",
    "Mizar.Props.C150_weights",
    "Mizar.Props.C150_bootstrap",
    "Mizar.Props.C150_float64"
   ],
   "note": "C150_format, C150_agrees: float32 and float64 agree with roundBits between underflow and overflow; C150_average_uniqueness, C150_weights, C150_bootstrap: the functions give the same results for every arithmetic that agrees on a range; C150_float64: the concrete formats. With these the theorems of C102-C104 hold in float64."
  },
  {
   "property": "C151",
   "status": "partial",
   "theorems": [
    "Mizar.Props.C151_outcome_partial",
    "Mizar.Props.C151_no_levels",
    "Mizar.Props.C151_float64",
    "Mizar.Props.C151_zero_factor_refuted"
   ],
   "note": "C151_outcome_partial: end time and metalabel are the settlement of the created position by its own levels, for positive factors; C151_no_levels: without volatility neither levels nor label; C151_zero_factor_refuted: a factor of zero is no barrier for the labels and a level of zero for the position. C151_float64: in floats with underflow and overflow the barriers round like the position's levels, so the event ends where the position leaves its levels."
  },
  {
   "property": "C152",
   "status": "partial",
   "theorems": [
    "Mizar.Props.C152_events",
    "Mizar.Props.C152_bootstrap",
    "Mizar.Props.C152_cross_validation",
    "Mizar.Props.C152_purged_partial",
    "Mizar.Props.C152_purged_refuted"
   ],
   "note": "C152_events: labelled events start in increasing order, end minLen-1 to look-2 bars later, for every step; C152_bootstrap, C152_cross_validation: accepted by the weights, the bootstrap and the cross validation; C152_purged_partial: with step one and the last deciding bar as evaluation time, training labels before a test event do not depend on the values from its bar on; C152_purged_refuted: with the reported end as evaluation time they do."
  },
  {
   "property": "C153",
   "status": "partial",
   "theorems": [
    "Mizar.Props.C153_meta_size",
    "Mizar.Props.C153_primary_size",
    "Mizar.Props.C153_success",
    "Mizar.Props.C153_valid",
    "Mizar.Props.C153_average_refuted",
    "Mizar.Props.C153_unscored_refuted"
   ],
   "note": "C153_meta_size, C153_primary_size: exactly which rows with which sizes; C153_success: size 0 unless class 1 is the more probable; C153_valid: strategy_valid is true whenever create_signal returns; C153_average_refuted: never a size with average_active; C153_unscored_refuted: a metalabeling row without a side makes the call fail."
  },
  {
   "property": "C154",
   "status": "proved",
   "theorems": [
    "Mizar.Props.C154_no_class",
    "Mizar.Props.C154_same",
    "Mizar.Props.C154_range",
    "Mizar.Props.C154_average",
    "Mizar.Props.C154_discretise",
    "Mizar.Props.C154_step_refuted",
    "Mizar.Props.C154_unbounded",
    "Mizar.Props.C154_mean",
    "Mizar.Props.C154_votes",
    "Mizar.Props.C154_predict",
    "Mizar.Props.C154_tiny_refuted"
   ],
   "note": "Proved as stated; the refuted theorems show that its conditions are needed or that exceptions it names do occur. C154_same: without averaging the float64 sizes are those of C108; C154_range: always finite and in [0,1]; C154_average, C154_discretise: averages and steps; C154_mean, C154_votes, C154_predict: bagging; C154_unbounded: link to C108; C154_step_refuted: a step below the smallest normal number can turn a small signal into a full bet; C154_tiny_refuted: a mean of tiny probabilities can be 0. Assumed of the library: BetFnOk and BetFnFits. C154_no_class: zero classes raise ZeroDivisionError."
  },
  {
   "property": "C155",
   "status": "proved",
   "theorems": [
    "Mizar.Props.C155_formats",
    "Mizar.Props.C155_uniqueness",
    "Mizar.Props.C155_no_bars",
    "Mizar.Props.C155_decay_same",
    "Mizar.Props.C155_decay",
    "Mizar.Props.C155_minus_one_refuted",
    "Mizar.Props.C155_log",
    "Mizar.Props.C155_returns",
    "Mizar.Props.C155_returns_error",
    "Mizar.Props.C155_sign"
   ],
   "note": "Proved as stated; the refuted theorem shows that the minimum weight -1, excluded in the statement, gives NaN. C155_uniqueness, C155_no_bars: average uniqueness; C155_decay_same, C155_decay: time decay; C155_returns, C155_returns_error, C155_sign: weights by return; C155_formats: float64 and float32 are wide enough; C155_log: logarithms as assumed exist. Assumed of the library: the logarithm is a float with relative error at most two units (GoodLog), np.sum adds in an order fixed by the length."
  },
  {
   "property": "C156",
   "status": "partial",
   "theorems": [
    "Mizar.Props.C156_rows",
    "Mizar.Props.C156_length",
    "Mizar.Props.C156_distinct_partial",
    "Mizar.Props.C156_increasing_partial",
    "Mizar.Props.C156_refuted",
    "Mizar.Props.C156_pipeline_side",
    "Mizar.Props.C156_newest_first",
    "Mizar.Props.C156_metalabels",
    "Mizar.Props.C156_side_and_probability_refuted"
   ],
   "note": "Refuted in general (C156_refuted): repeated times give more rows than bars, bars out of order give rows in order of time. Exact: C156_rows (rows of every time and when it buys), C156_length (one row for each bar exactly if the times after the first bar are distinct). C156_distinct_partial: distinct times in any order; C156_increasing_partial: increasing times, where the predictions are those of C77. The indicator gives one value for each row (otherwise ValueError). In the pipeline the sides are looked up by time and are right for distinct times in any order, ValueError when bars after the first share a time (C156_pipeline_side); the probabilities are taken by position (C156_newest_first), so that side and probability of a bar can disagree (C156_side_and_probability_refuted). In the pipeline: C156_pipeline_side (sides are looked up by time; repeated times raise ValueError), C156_newest_first, C156_metalabels (targets of the metalabeling model; ValueError unless the times are in order)."
  },
  {
   "property": "C157",
   "status": "partial",
   "theorems": [
    "Mizar.Props.C157_accepted",
    "Mizar.Props.C157_newest_first",
    "Mizar.Props.C157_oldest_first_partial",
    "Mizar.Props.C157_newest_first_refuted"
   ],
   "note": "Refuted for frames given newest first (C157_newest_first_refuted). Exact for every such frame: C157_newest_first. C157_accepted: frames in any other order than increasing or decreasing are never labelled. C157_oldest_first_partial: with increasing times of whole milliseconds every labelled event ends after it starts; several bars in a millisecond: C88_any_times. The volatility is any function of times and prices."
  },
  {
   "property": "C158",
   "status": "partial",
   "theorems": [
    "Mizar.Props.C158_alignment",
    "Mizar.Props.C158_alignment_any_order",
    "Mizar.Props.C158_shared_time_refused",
    "Mizar.Props.C158_training_set",
    "Mizar.Props.C158_distinct_times_partial",
    "Mizar.Props.C158_refuted"
   ],
   "note": "Alignment proved: C158_alignment (times that do not decrease; equals the alignment of C44, C45, C127, C145), C158_alignment_any_order (exact, any order). Training sets refuted (C158_refuted): a labelled time with two targets and a complete bar makes the call raise ValueError (C158_shared_time_refused). C158_training_set: exact content whenever a training set is made. C158_distinct_times_partial: with distinct times training sets are those of C49. Frames share their index, as aligned frames do (C46)."
  },
  {
   "property": "C159",
   "status": "partial",
   "theorems": [
    "Mizar.Props.C159_exact",
    "Mizar.Props.C159_shared",
    "Mizar.Props.C159_single_partial",
    "Mizar.Props.C159_refuted",
    "Mizar.Props.C159_raises_refuted"
   ],
   "note": "Refuted for shared times: C159_refuted (four values for two bars), C159_raises_refuted (ValueError). C159_exact: exact outcome for all times that do not decrease. C159_shared: a bar with a reference that shares its time always gives ValueError or too many values. C159_single_partial: one value for each bar when no bar with a reference and no reference shares its time; then it is the function of C33."
  },
  {
   "property": "C160",
   "status": "partial",
   "theorems": [
    "Mizar.Props.C160_primary",
    "Mizar.Props.C160_primary_sizer",
    "Mizar.Props.C160_metalabeling_partial",
    "Mizar.Props.C160_metalabeling_sizer_partial",
    "Mizar.Props.C160_different_rows",
    "Mizar.Props.C160_sizer_different_rows",
    "Mizar.Props.C160_distinct_times_partial",
    "Mizar.Props.C160_refuted"
   ],
   "note": "Primary model only: proved (C160_primary; with any bet sizer that keeps the order of its rows C160_primary_sizer). With metalabeling: C160_metalabeling_partial (features of both models complete at the same bars, probabilities not used as features; with such a bet sizer C160_metalabeling_sizer_partial), refuted in general (C160_refuted; C160_different_rows gives ValueError for all such data, C160_sizer_different_rows with a bet sizer also when the sides are no features). C160_distinct_times_partial: for distinct times everything is as in the model of C47, C48, C105, C141. Missing: probabilities as features with repeated times and, without sides as features, different rows (the outcome depends on the version of pandas; arbitrary functions in the model); bet sizers that reorder or drop rows with repeated times."
  }
 ]
}