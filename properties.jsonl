{"id": "C01", "title": "CombPurgedKFoldCV accepts exactly the valid parameters", "statement": "Constructing CombPurgedKFoldCV(n_groups, n_test_splits, ..., embargo_td) succeeds exactly when 1 <= n_test_splits <= n_groups - 1 and embargo_td is not negative; every other integer combination raises ValueError. On success get_n_splits() equals the binomial coefficient C(n_groups, n_test_splits).", "quantifier": "every pair of integers n_groups, n_test_splits and every embargo", "why_tests_cant": "the parameter space is infinite and the split count goes through a floating-point division", "anchors": ["mizarlabs/model/model_selection.py: CombPurgedKFoldCV.__init__"]}
{"id": "C02", "title": "Every combination of test folds is used exactly once", "statement": "Iterating CombPurgedKFoldCV.split yields exactly C(n_groups, n_test_splits) rounds; every choice of n_test_splits distinct folds is the test set of exactly one round, and the first round has its whole test set at the end of the data.", "quantifier": "every number of groups, test splits and samples (at least one sample per group)", "why_tests_cant": "combinatorial in both parameters, a test fixes one small pair", "anchors": ["mizarlabs/model/model_selection.py: CombPurgedKFoldCV._test_fold_bounds, split"]}
{"id": "C03", "title": "The folds are a balanced contiguous partition", "statement": "The folds used by CombPurgedKFoldCV are consecutive half-open position ranges that start at 0, end at n_samples, cover every position exactly once and differ in size by at most one; when there are fewer samples than groups split raises IndexError instead.", "quantifier": "every n_samples and n_groups >= 1", "why_tests_cant": "infinite family of (n_samples, n_groups) including all remainders", "anchors": ["mizarlabs/model/model_selection.py: CombPurgedKFoldCV._test_fold_bounds"]}
{"id": "C04", "title": "Train and test positions are disjoint, in range and the test set is the union of its folds", "statement": "In every round of CombPurgedKFoldCV.split the test array is the strictly increasing list of all positions of the selected folds, every train position is a valid position, and no position is in both train and test.", "quantifier": "every dataset length, pred/eval times (any, even unsorted), embargo, and every round", "why_tests_cant": "ranges over all time series and all rounds", "anchors": ["mizarlabs/model/model_selection.py: CombPurgedKFoldCV._compute_test_set, _compute_train_set, purge, embargo"]}
{"id": "C05", "title": "Purging: no training label reaches into a later test block", "statement": "In every round, with pred_times non-decreasing and eval_times >= pred_times, a training sample that lies before a test sample has an evaluation time strictly earlier than the prediction time of that test sample.", "quantifier": "every sorted prediction-time series, every evaluation-time series, every round, every train/test pair", "why_tests_cant": "a statement about all pairs of samples of all datasets", "anchors": ["mizarlabs/model/model_selection.py: purge, CombPurgedKFoldCV._compute_train_set"]}
{"id": "C06", "title": "No leakage: training and test intervals never overlap and the embargo is respected", "statement": "In every round, for every training sample i and test sample t: either eval_time(i) < pred_time(t), or pred_time(i) > eval_time(t) + embargo.", "quantifier": "every sorted dataset, embargo and round", "why_tests_cant": "leakage only shows for particular time layouts; needs all train/test pairs of all datasets", "anchors": ["mizarlabs/model/model_selection.py: embargo, purge, CombPurgedKFoldCV.split"]}
{"id": "C07", "title": "Purging and embargo drop only samples that would leak", "statement": "In every round a non-test sample is missing from the train set only if its interval (extended by the embargo) overlaps the interval of some test sample of that round.", "quantifier": "every sorted dataset, embargo and round", "why_tests_cant": "over-dropping is silent: scores are still produced, on less data", "anchors": ["mizarlabs/model/model_selection.py: embargo, purge"]}
{"id": "C08", "title": "Each sample is tested equally often", "statement": "Over a full iteration of CombPurgedKFoldCV.split every sample position is in the test set of exactly C(n_groups-1, n_test_splits-1) rounds.", "quantifier": "every position, n_samples, n_groups, n_test_splits", "why_tests_cant": "counting statement over all rounds for all sizes", "anchors": ["mizarlabs/model/model_selection.py: CombPurgedKFoldCV.split"]}
{"id": "C09", "title": "compute_back_test_paths is the binomial C(N-1,k-1)", "statement": "compute_back_test_paths(N, k) equals C(N-1, k-1) = k/N * C(N, k) for all 1 <= k <= N for which that number is exactly representable as a double.", "quantifier": "all N and k", "why_tests_cant": "closed form for infinitely many inputs, computed through float division", "anchors": ["mizarlabs/model/model_selection.py: compute_back_test_paths"]}
{"id": "C10", "title": "Backtest paths cover every fold once and use each prediction at most once", "statement": "combinatorial_cross_validation_paths yields C(n_groups-1, n_test_splits-1) paths; every path contains exactly one prediction block per fold, in a path each sample occurs once, and over all paths no block is used twice, whatever the shuffles do.", "quantifier": "every n_groups, n_test_splits and every outcome of random.shuffle", "why_tests_cant": "ranges over all random schedules and all parameter pairs", "anchors": ["mizarlabs/model/model_selection.py: combinatorial_cross_validation_paths, compute_back_test_paths"]}
{"id": "C11", "title": "Indicator matrix marks exactly the bars between event start and end", "statement": "get_ind_matrix returns a 0/1 matrix with one column per event and one row per element of the sorted duplicate-free union of event starts, event ends and the price bars between first start and last end; the entry is 1 exactly when the row time is within [start, end] of the event.", "quantifier": "every list of events and every list of price bars", "why_tests_cant": "all event layouts, including duplicated and unordered ones", "anchors": ["mizarlabs/model/bootstrapping.py: get_ind_matrix"]}
{"id": "C12", "title": "get_ind_matrix fails only on missing times", "statement": "get_ind_matrix raises for inputs containing a missing start or end time and returns normally for every other non-empty set of events whose ends are not before their starts.", "quantifier": "every list of events, in particular degenerate ones such as a single event", "why_tests_cant": "the failing family (matrix without zeros) is not reached by any example in the test-suite", "anchors": ["mizarlabs/model/bootstrapping.py: get_ind_matrix"]}
{"id": "C13", "title": "Average uniqueness lies in (0,1] and is 1 exactly for non-overlapping events", "statement": "calc_average_uniqueness assigns to every event the mean over its bars of 1/(number of events covering the bar); the value is in (0,1], and it is 1 exactly when no other event covers any of its bars.", "quantifier": "every indicator matrix with no empty column", "why_tests_cant": "all overlap structures", "anchors": ["mizarlabs/model/bootstrapping.py: calc_average_uniqueness", "mizarlabs/transformers/sampling/average_uniqueness.py: AverageUniqueness.transform"]}
{"id": "C14", "title": "Uniqueness is conserved", "statement": "The sum over events of (average uniqueness x number of bars of the event) equals the number of bars covered by at least one event.", "quantifier": "every indicator matrix", "why_tests_cant": "global identity over all matrices", "anchors": ["mizarlabs/model/bootstrapping.py: calc_average_uniqueness"]}
{"id": "C15", "title": "Incremental probability update equals full recomputation", "statement": "At every draw of seq_bootstrap the probability of each sample is proportional to its average uniqueness given all samples drawn up to the last update (recomputed from scratch), although the code only updates the samples touched by the last draws.", "quantifier": "every indicator matrix, every batch size update_probs_every >= 1, every random draw history", "why_tests_cant": "the invariant ranges over all histories of random draws", "anchors": ["mizarlabs/model/bootstrapping.py: seq_bootstrap, _calc_update_avg_unique"]}
{"id": "C16", "title": "seq_bootstrap returns the requested number of valid samples", "statement": "For every sample_length >= 0 and update_probs_every >= 1 seq_bootstrap returns exactly sample_length column indices of the matrix, for every random generator; a batch size of 0 and a length and batch size that are both negative raise.", "quantifier": "every length, batch size and random history", "why_tests_cant": "all batch-size remainders and random streams", "anchors": ["mizarlabs/model/bootstrapping.py: seq_bootstrap"]}
{"id": "C17", "title": "Draw probabilities are a strictly positive distribution", "statement": "The vector passed to random_state.choice is strictly positive and sums to one at every draw, so every sample can always be drawn.", "quantifier": "every matrix and draw history", "why_tests_cant": "inductive invariant over histories", "anchors": ["mizarlabs/model/bootstrapping.py: seq_bootstrap"]}
{"id": "C18", "title": "Drawing a sample never raises another sample's uniqueness", "statement": "Average uniqueness used by seq_bootstrap for a sample never increases when more samples have been drawn, and it strictly decreases when a newly drawn sample shares a bar with it.", "quantifier": "every matrix, every draw multiset", "why_tests_cant": "monotonicity over all histories", "anchors": ["mizarlabs/model/bootstrapping.py: _calc_update_avg_unique"]}
{"id": "C19", "title": "Bagging result does not depend on the number of jobs", "statement": "SequentiallyBootstrappedBaggingClassifier.fit builds the same estimators in the same order for every n_jobs.", "quantifier": "every number of estimators, of jobs and every seed list", "why_tests_cant": "all partitions / schedules of the parallel loop", "anchors": ["mizarlabs/model/sequentially_bootstrapped_bagging_classifier.py: SequentiallyBootstrappedBaseBagging._fit, _parallel_build_estimators"]}
{"id": "C20", "title": "Warm start equals fitting from scratch", "statement": "With an integer random_state and warm_start=True, raising n_estimators through any increasing sequence of fits on the same data gives the same estimators, features and samples as one cold fit with the final n_estimators.", "quantifier": "every increasing sequence of n_estimators values", "why_tests_cant": "quantifies over all fit histories", "anchors": ["mizarlabs/model/sequentially_bootstrapped_bagging_classifier.py: _fit"]}
{"id": "C21", "title": "Fitted attributes stay aligned over every fit history", "statement": "After any sequence of fit calls (warm or cold, with any changes of n_estimators) that did not raise, estimators_, estimators_features_ and sequentially_bootstrapped_samples_ have length n_estimators; a warm fit with fewer estimators raises ValueError and leaves the fitted estimators unchanged.", "quantifier": "every history of fits", "why_tests_cant": "histories are unbounded", "anchors": ["mizarlabs/model/sequentially_bootstrapped_bagging_classifier.py: _fit"]}
{"id": "C22", "title": "Bootstrapped sample weights are draw counts times user weights", "statement": "Each base estimator supporting weights is trained with weight sample_weight[i] * (number of times i was drawn); without user weights the weights sum to max_samples.", "quantifier": "every draw list, every weight vector", "why_tests_cant": "all draws", "anchors": ["mizarlabs/model/sequentially_bootstrapped_bagging_classifier.py: _parallel_build_estimators"]}
{"id": "C23", "title": "Out-of-bag score only uses out-of-bag estimators", "statement": "oob_decision_function_[i] is the mean of the class probabilities of exactly those estimators whose bootstrap sample does not contain i; it sums to one over classes, or is NaN when every estimator has seen i.", "quantifier": "every ensemble and sample lists", "why_tests_cant": "all bag layouts, including the one where a sample is in every bag", "anchors": ["mizarlabs/model/sequentially_bootstrapped_bagging_classifier.py: _set_oob_score"]}
{"id": "C24", "title": "max_samples and max_features validation", "statement": "fit resolves max_samples to an integer m with 1 <= m <= n_samples or raises ValueError; max_features resolves to an integer f with 1 <= f <= n_features or raises ValueError.", "quantifier": "every integer or rational parameter value and data size", "why_tests_cant": "all numeric parameter values", "anchors": ["mizarlabs/model/sequentially_bootstrapped_bagging_classifier.py: _fit"]}
{"id": "C25", "title": "Horizontal barrier hit is the first breach inside the window", "statement": "get_horizontal_barriers_hit reports, per event, the timestamp of the first bar t with start <= t < expiration whose side-adjusted return from the event's close is below -stop_loss_factor*volatility (resp. above profit_taking_factor*volatility), or NaT when there is none.", "quantifier": "every price path (incl. NaN prices), side, volatility, factors and window", "why_tests_cant": "all price paths", "anchors": ["mizarlabs/transformers/targets/labeling.py: get_horizontal_barriers_hit"]}
{"id": "C26", "title": "Event end is the earliest barrier and lies inside the event window", "statement": "The event end time reported by TripleBarrierMethodLabeling is the earliest of stop-loss hit, profit-taking hit and expiration bar; it is after the start and not after the bar n_expiration_bars later, and missing only when there is no expiration bar in the data and no horizontal barrier was hit.", "quantifier": "every price path and parameter set, n_expiration_bars >= 1", "why_tests_cant": "all price paths", "anchors": ["mizarlabs/transformers/targets/labeling.py: triple_barrier_labeling, TripleBarrierMethodLabeling._transform"]}
{"id": "C27", "title": "The label agrees with the barrier that was hit first", "statement": "Without a side column: if the profit-taking barrier is touched first the label is +1 and if the stop-loss barrier is touched first it is -1; if only the expiration is reached the label is the sign of the close-to-close return, or 0 with expiration_label=True.", "quantifier": "every positive price path, non-negative volatility and positive factors", "why_tests_cant": "all price paths", "anchors": ["mizarlabs/transformers/targets/labeling.py: get_labels, triple_barrier_labeling"]}
{"id": "C28", "title": "Metalabel is 1 exactly when the given side made money", "statement": "With metalabeling the label is 1 if side * (close_end/close_start - 1) > 0, 0 if it is negative, NaN if it is zero (before the optional expiration label).", "quantifier": "every price path and side in {-1,0,1}", "why_tests_cant": "all price paths and sides", "anchors": ["mizarlabs/transformers/targets/labeling.py: get_labels"]}
{"id": "C29", "title": "Labels do not look beyond the expiration bar", "statement": "The label, return and end time of the event at bar i only depend on prices of bars i..i+n_expiration_bars (and on the volatility of bar i): changing any other price leaves them unchanged.", "quantifier": "every pair of price paths agreeing on the window", "why_tests_cant": "non-interference statement over pairs of inputs", "anchors": ["mizarlabs/transformers/targets/labeling.py: TripleBarrierMethodLabeling._transform, triple_barrier_labeling"]}
{"id": "C30", "title": "Events without volatility are unlabelled", "statement": "Bars for which the daily volatility is missing get missing end time, return and label, and all other rows are labelled as if those bars were not events.", "quantifier": "every price path", "why_tests_cant": "all patterns of missing volatility", "anchors": ["mizarlabs/transformers/targets/labeling.py: triple_barrier_labeling, _transform"]}
{"id": "C31", "title": "A custom side column is honoured", "statement": "TripleBarrierMethodLabeling(side_column_name=c) with a side column named c labels the data using that column.", "quantifier": "every column name c and every frame", "why_tests_cant": "the tests only use the default name", "anchors": ["mizarlabs/transformers/targets/labeling.py: TripleBarrierMethodLabeling._transform, triple_barrier_labeling"]}
{"id": "C32", "title": "Barrier hit times do not depend on the clock origin", "statement": "Shifting all timestamps by the same amount shifts reported barrier hits by that amount and changes nothing else.", "quantifier": "every price path and every shift, including ones that put a bar at the Unix epoch", "why_tests_cant": "needs all shifts; 0 is used as a sentinel", "anchors": ["mizarlabs/transformers/targets/labeling.py: get_horizontal_barriers_hit"]}
{"id": "C33", "title": "Daily volatility compares with the last bar more than a day ago", "statement": "get_daily_vol uses for each bar t the return with respect to the latest bar strictly before t minus one day; bars without such a bar have no value; the value at t only depends on bars up to t.", "quantifier": "every strictly increasing time index and price path", "why_tests_cant": "all irregular bar spacings", "anchors": ["mizarlabs/transformers/targets/labeling.py: get_daily_vol"]}
{"id": "C34", "title": "CUSUM filter selects exactly the draw-up / draw-down breaches", "statement": "CUSUMFilter selects bar k exactly when price[k] exceeds the minimum price since the last upward event by more than the threshold, or is below the maximum price since the last downward event by more than the threshold.", "quantifier": "every price path and threshold >= 0", "why_tests_cant": "all paths; the filter is a recursive state machine", "anchors": ["mizarlabs/transformers/sampling/down_sampling.py: CUSUMFilter.transform"]}
{"id": "C35", "title": "A higher CUSUM threshold never selects more bars", "statement": "For thresholds h1 <= h2 the number of bars selected with h2 is at most the number selected with h1.", "quantifier": "all price paths and threshold pairs", "why_tests_cant": "relational property over two runs", "anchors": ["mizarlabs/transformers/sampling/down_sampling.py: CUSUMFilter.transform"]}
{"id": "C36", "title": "CUSUM selection is a causal subsequence", "statement": "The selected index is a subsequence of the input index without its first element, a prefix of the data gives a prefix of the selection, shifting or mirroring the price path does not change the selection, and a bar never triggers both sides.", "quantifier": "all price paths (incl. NaN) and thresholds", "why_tests_cant": "relational, over all paths", "anchors": ["mizarlabs/transformers/sampling/down_sampling.py: CUSUMFilter.transform"]}
{"id": "C37", "title": "Bet size is in [0,1]", "statement": "BetSizingFromProbabilities returns sizes in [0,1] for predictions in [-1,1], probabilities in [0,1], side in [-1,1], any number of classes >= 1, with or without averaging and discretisation.", "quantifier": "all inputs and option combinations", "why_tests_cant": "all real inputs, including probability 0 and 1 where a division by zero occurs", "anchors": ["mizarlabs/transformers/trading/bet_sizing.py: BetSizingFromProbabilities._transform, BetSizingBase.transform"]}
{"id": "C38", "title": "Higher confidence never gives a smaller bet", "statement": "For a fixed prediction the size is non-decreasing in the probability, and it is 0 at probability 1/num_classes.", "quantifier": "all pairs of probabilities", "why_tests_cant": "monotonicity over a continuum", "anchors": ["mizarlabs/transformers/trading/bet_sizing.py: BetSizingFromProbabilities._transform"]}
{"id": "C39", "title": "Discretised signals are monotone, odd, in [-1,1] and close to the signal", "statement": "discretise_signal returns values in [-1,1]; it is monotone and odd in the signal, within step/2 + 0.0005 of a signal in [-1,1], and applying it twice equals applying it once for steps larger than 0.001.", "quantifier": "all signals and positive steps", "why_tests_cant": "continuum of inputs, rounding boundaries", "anchors": ["mizarlabs/transformers/trading/bet_sizing.py: discretise_signal"]}
{"id": "C40", "title": "Average active signal is the mean of the active bets", "statement": "avg_active_signals gives at every start or end time the mean of the bets whose interval [start, end) contains it (a missing end never closes) and 0 if there is none; the index is the sorted union of starts and ends.", "quantifier": "all bet lists", "why_tests_cant": "all interval layouts", "anchors": ["mizarlabs/transformers/trading/bet_sizing.py: avg_active_signals, _get_avg_active_signals"]}
{"id": "C41", "title": "Bet size column name is configurable", "statement": "BetSizingFromProbabilities with a custom bet_size_column_name behaves as with the default name.", "quantifier": "every name and option combination", "why_tests_cant": "tests use the default", "anchors": ["mizarlabs/transformers/trading/bet_sizing.py: BetSizingFromProbabilities._transform"]}
{"id": "C42", "title": "Sample weights by return", "statement": "SampleWeightsByReturns gives each event the absolute value of the sum over the bars in [start, end] of log-return / number of concurrent events; the weight is never negative and at most the sum of absolute log-returns over the event, and bars outside the event do not matter beyond their concurrency.", "quantifier": "all frames and events", "why_tests_cant": "all paths", "anchors": ["mizarlabs/transformers/sample_weights/__init__.py: SampleWeightsByReturns.transform, _calculate_weights"]}
{"id": "C43", "title": "Time-decay weights are monotone in time and end at one", "statement": "SampleWeightsByTimeDecay gives the latest event weight 1, weights are non-decreasing in time and within [0,1], are all 1 for minimum weight 1, strictly above c for 0 <= c < 1, and for c < 0 exactly the oldest events with a cumulative uniqueness share of at most -c get weight 0.", "quantifier": "every uniqueness vector and every minimum weight <= 1", "why_tests_cant": "continuum of inputs; values of c <= -1 are accepted by the code", "anchors": ["mizarlabs/transformers/sample_weights/__init__.py: SampleWeightsByTimeDecay.transform"]}
{"id": "C44", "title": "Alignment aggregates exactly the rows since the previous alignment point", "statement": "StrategySignalPipeline alignment gives at every alignment time the aggregation of the feature rows after the previous alignment time and up to this one, or the previous aligned row when there are none; every feature row is aggregated exactly once.", "quantifier": "all sorted feature and alignment indices and aggregation functions", "why_tests_cant": "all interleavings of the two indices", "anchors": ["mizarlabs/model/pipeline.py: StrategySignalPipeline._align_on"]}
{"id": "C45", "title": "Alignment never looks ahead", "statement": "The aligned row at time t does not change when feature rows later than t are added, removed or changed.", "quantifier": "all pairs of feature frames that agree up to t", "why_tests_cant": "relational over all inputs", "anchors": ["mizarlabs/model/pipeline.py: StrategySignalPipeline._align_on"]}
{"id": "C46", "title": "Aligned frames have exactly the alignment index and no key is lost", "statement": "After alignment every feature frame has the index of the align_on frame (minus dropped rows), the set of keys is unchanged and the align_on frame itself is unchanged; a missing aggregation function raises KeyError rather than dropping a column.", "quantifier": "all dictionaries of frames", "why_tests_cant": "all dictionary shapes", "anchors": ["mizarlabs/model/pipeline.py: _align_on"]}
{"id": "C47", "title": "transform refuses mismatching dictionaries", "statement": "StrategySignalPipeline.transform raises unless the keys of the data are exactly the keys of the configured transformers and returns one transformed frame per configured key.", "quantifier": "all dictionaries", "why_tests_cant": "all key sets", "anchors": ["mizarlabs/model/pipeline.py: StrategySignalPipeline.transform"]}
{"id": "C48", "title": "Side/size frame only contains rows both models agreed to score", "statement": "get_side_and_size returns exactly the times for which both a side and a size exist; side is the primary prediction, size the probability of success (metalabeling) or the highest class probability.", "quantifier": "all pipelines and data", "why_tests_cant": "all combinations of warm-up lengths of the two feature sets", "anchors": ["mizarlabs/model/pipeline.py: get_side_and_size, predict, predict_proba"]}
{"id": "C49", "title": "Training sets have no NaN and features and targets share their index", "statement": "create_dataset_primary and create_dataset_metalabeling return X and y with the same index, without missing values, only with labelled times, and metalabels are 1 exactly when the primary prediction equals the label.", "quantifier": "all inputs", "why_tests_cant": "all missing-value patterns", "anchors": ["mizarlabs/model/pipeline.py: create_dataset_primary, create_dataset_metalabeling, _align_X_dict_and_y"]}
{"id": "C50", "title": "A configured closing model is consulted", "statement": "determine_positions_to_close returns what the configured closing-positions model returns.", "quantifier": "every pipeline and data", "why_tests_cant": "no test configures a closing model", "anchors": ["mizarlabs/model/pipeline.py: determine_positions_to_close"]}
{"id": "C51", "title": "strategy_valid reflects the last signals", "statement": "After create_signal, strategy_valid is True exactly when all sizes are in [0,1] and all sides in [-1,1]; duplicate index entries in any input frame raise ValueError before anything else happens.", "quantifier": "every signal frame and history of calls", "why_tests_cant": "histories and all numeric values", "anchors": ["mizarlabs/model/pipeline.py: StrategyTrader._check_signal_has_valid_output, _check_X_dict, create_signal"]}
{"id": "C52", "title": "create_position does not change its inputs and can be repeated", "statement": "Calling create_position leaves the given frames unchanged; calling it again on the same dictionary gives the same positions.", "quantifier": "every dictionary and number of repetitions", "why_tests_cant": "history property; a single-call test cannot see the mutation", "anchors": ["mizarlabs/model/pipeline.py: StrategyTrader.create_position, create_strategy_bars"]}
{"id": "C53", "title": "Stop loss and profit taking of a position follow the volatility", "statement": "Every row of create_position with a signal carries stop_loss = volatility*stop_loss_factor, profit_taking = volatility*profit_taking_factor and the configured number of expiration bars; the index is the union of signals and bars restricted as documented.", "quantifier": "all inputs", "why_tests_cant": "all data", "anchors": ["mizarlabs/model/pipeline.py: StrategyTrader.create_strategy_bars, create_position"]}
{"id": "C54", "title": "Moving-average crossover side follows the averages", "statement": "MovingAverageCrossOver gives +1 exactly at upward crossings and -1 at downward crossings, 0 elsewhere; with fill_between_crossovers it is +1 whenever the fast average is above the slow one and -1 whenever below, from the first crossing on.", "quantifier": "all price paths", "why_tests_cant": "state machine over all paths", "anchors": ["mizarlabs/transformers/technical/moving_average.py: MovingAverageCrossOver.transform"]}
{"id": "C55", "title": "Rule-based predictors return a valid one-hot probability", "statement": "predict_proba of the rule-based strategies has one row per prediction, exactly one entry 1 and the others 0, and the column with the 1 is the predicted class; predictions are within classes_.", "quantifier": "all inputs and parameters", "why_tests_cant": "all inputs", "anchors": ["mizarlabs/transformers/technical/moving_average.py: MovingAverageCrossOverPredictor.predict_proba", "mizarlabs/transformers/technical/mean_reversion.py: MeanReversionStrategy", "mizarlabs/transformers/technical/rsi.py: BarArrivalRSIStrategy, RSIConfirmation"]}
{"id": "C56", "title": "Mean-reversion signal is exclusive", "statement": "For threshold >= 0 MeanReversionStrategy sells exactly when (close-ema)/ema > threshold, buys exactly when it is below -threshold, and is 0 otherwise (also while the average is undefined).", "quantifier": "all paths and thresholds", "why_tests_cant": "continuum; the sign of the threshold matters", "anchors": ["mizarlabs/transformers/technical/mean_reversion.py: MeanReversionStrategy.predict"]}
{"id": "C57", "title": "MACD crossover signal", "statement": "MACDHistogramCrossOver gives +1 exactly where the histogram goes from negative to positive, -1 from positive to negative, half values when it passes through zero, 0 when the sign does not change.", "quantifier": "all histogram paths", "why_tests_cant": "all paths", "anchors": ["mizarlabs/transformers/technical/macd.py: MACDHistogramCrossOver.transform"]}
{"id": "C58", "title": "Features are causal", "statement": "The value at bar t of every rolling feature (moving averages, z-scores, VPIN, microstructure features, imbalance, crossover sides) computed on a longer history equals the value computed on the data up to t.", "quantifier": "every feature, every input and every cut point", "why_tests_cant": "relational property over prefixes of all inputs", "anchors": ["mizarlabs/transformers/microstructural_features/first_generation.py", "mizarlabs/transformers/microstructural_features/second_generation.py", "mizarlabs/transformers/microstructural_features/vpin.py: VPIN.transform", "mizarlabs/transformers/features/rolling_z_score.py", "mizarlabs/transformers/features/custom.py", "mizarlabs/transformers/technical/moving_average.py", "mizarlabs/transformers/technical/volume.py"]}
{"id": "C59", "title": "VPIN is between 0 and 1 and defined after the warm-up", "statement": "With buy/sell volumes non-negative and adding up to the volume, VPIN is in [0,1] wherever defined, the first window-1 values are missing and all later values are defined.", "quantifier": "all volume paths, windows", "why_tests_cant": "includes windows of zero volume", "anchors": ["mizarlabs/transformers/microstructural_features/vpin.py: VPIN.transform"]}
{"id": "C60", "title": "Spread and volatility estimators are non-negative, scale-free and bounded", "statement": "Corwin-Schultz spread is in [0,2), Parkinson and Beckers-Parkinson volatilities are >= 0 where defined, and all are unchanged when all prices are multiplied by the same positive constant.", "quantifier": "all positive price paths", "why_tests_cant": "continuum of inputs", "anchors": ["mizarlabs/transformers/microstructural_features/first_generation.py: CorwinSchultzSpread, ParkinsonVolatility, BeckersParkinsonVolatility, _get_alpha, _get_beta, _get_gamma"]}
{"id": "C61", "title": "Lambda estimators are non-negative and homogeneous", "statement": "Kyle, Amihud and Hasbrouck lambdas are >= 0 where defined; multiplying prices by c multiplies Kyle's lambda by c and leaves Amihud's and Hasbrouck's unchanged; multiplying volumes by c divides Kyle's and Amihud's by c.", "quantifier": "all paths", "why_tests_cant": "continuum", "anchors": ["mizarlabs/transformers/microstructural_features/second_generation.py"]}
{"id": "C62", "title": "Rolling z-score is affine invariant and bounded", "statement": "The rolling z-score does not change when the series is shifted or multiplied by a positive constant, flips sign when multiplied by a negative one and its square is at most (w-1)^2/w.", "quantifier": "all series and windows >= 2", "why_tests_cant": "continuum", "anchors": ["mizarlabs/transformers/features/rolling_z_score.py: RollingZScoreTransformer.calc_z_score"]}
{"id": "C63", "title": "Exponentially weighted mean stays in the range of its inputs", "statement": "Every exponentially weighted mean used by the features is a convex combination of the observations so far.", "quantifier": "all series, spans", "why_tests_cant": "continuum", "anchors": ["mizarlabs/transformers/technical/moving_average.py: ExponentialWeightedMovingAverageDifference", "mizarlabs/transformers/technical/mean_reversion.py"]}
{"id": "C64", "title": "TA signature parser inverts the documented signature format", "statement": "For a docstring of the form name(a, b[, k=?, l=?]) TAFactory.get_args_kwargs returns exactly the positional names [a, b] and keyword names [k, l].", "quantifier": "all lists of names without special characters", "why_tests_cant": "all signatures", "anchors": ["mizarlabs/transformers/technical/factory.py: TAFactory.get_args_kwargs"]}
{"id": "C65", "title": "TA argument mapping is a simultaneous renaming", "statement": "TAFactory maps the expected inputs to columns by a simultaneous renaming that keeps their order and number, and rejects mappings, missing or unknown keyword parameters that do not fit the function.", "quantifier": "all argument lists and mappings (including swaps)", "why_tests_cant": "all mappings", "anchors": ["mizarlabs/transformers/technical/factory.py: TAFactory._check_and_set_args, _check_and_set_kwargs, create_transformer"]}
{"id": "C66", "title": "Chu-Stinchcombe-White statistic is the supremum over starts", "statement": "The reported statistic at t is the maximum over earlier n of the (one- or two-sided) standardized difference and the critical value belongs to the first maximiser; the two-sided statistic is the maximum of both one-sided ones; it only depends on data up to t and is invariant under shift and positive scaling.", "quantifier": "all series", "why_tests_cant": "all paths", "anchors": ["mizarlabs/structural_breaks/cusum_chu_stinchcome_white.py: get_test_statistics_array"]}
{"id": "C67", "title": "Least squares helper is optimal", "statement": "get_beta_and_beta_var returns the coefficients minimising the sum of squared residuals and the textbook covariance.", "quantifier": "all full-rank design matrices and responses of every size", "why_tests_cant": "all dimensions", "anchors": ["mizarlabs/structural_breaks/sdfc.py: get_beta_and_beta_var"]}
{"id": "C68", "title": "SADF is the supremum over admissible start points and is causal", "statement": "The SADF statistic at t is the maximum of the (documented) ADF statistics over all windows ending at t with at least min_length rows and depends only on data up to t; the sub/super-martingale tests penalise by (t - t0)^phi.", "quantifier": "all series, lags, phi", "why_tests_cant": "all windows", "anchors": ["mizarlabs/structural_breaks/sadf.py: _get_sadf_at_t, _sadf_outer_loop"]}
{"id": "C69", "title": "SDFC statistic per break date", "statement": "SupremumDickeyFullerChowStatTest.run returns one statistic for every break position leaving min_num_samples on both sides, each computed from the regression with the dummy starting at this position.", "quantifier": "all series and minimum sizes", "why_tests_cant": "all lengths", "anchors": ["mizarlabs/structural_breaks/sdfc.py: get_dfc_array, SupremumDickeyFullerChowStatTest.run"]}
{"id": "C70", "title": "Trend scanning is deterministic", "statement": "The labels of TrendScannerLabeling are determined by the series and the parameters alone (no dependence on uninitialised memory), for every step.", "quantifier": "all series, parameters and memory contents", "why_tests_cant": "depends on uninitialised memory, tests see one memory state", "anchors": ["mizarlabs/transformers/targets/trend_scanning.py: _get_t_val_and_event_end_time_index_at_index"]}
{"id": "C71", "title": "Trend scanning picks the window with the largest absolute t-value", "statement": "The reported t-value is the one with the largest absolute value among the windows of length min_sample_length .. look_forward_window, the end time is the last bar of this window, inside the look-forward window, and the label is its sign.", "quantifier": "all series and parameters", "why_tests_cant": "all paths", "anchors": ["mizarlabs/transformers/targets/trend_scanning.py: _trend_scan_each_index"]}
{"id": "C72", "title": "Trend scanning does not remember earlier calls", "statement": "transform gives the same result whatever series were transformed before with the same object.", "quantifier": "all call histories", "why_tests_cant": "history property", "anchors": ["mizarlabs/transformers/targets/trend_scanning.py: TrendScannerLabeling._transform, _check_input"]}
{"id": "C73", "title": "Trend labels mirror", "statement": "Negating the series around a level flips the t-value and the label and keeps the end time; scaling and shifting leaves all three unchanged.", "quantifier": "all series", "why_tests_cant": "continuum", "anchors": ["mizarlabs/transformers/targets/trend_scanning.py: _get_t_val_and_event_end_time_index_at_index"]}
{"id": "C74", "title": "Log-uniform distribution function", "statement": "log_uniform(a,b) has a distribution function that is 0 at a, 1 at b, strictly increasing between, and gives equal probability to intervals with equal ratio.", "quantifier": "all 0 < a < b", "why_tests_cant": "continuum", "anchors": ["mizarlabs/model/model_selection.py: LogUniformGen._cdf, log_uniform"]}
{"id": "C75", "title": "Timestamp conversion is order preserving", "statement": "convert_to_timestamp is monotone, is exact up to the millisecond, and missing times come out negative so that they can be told from times after 1970.", "quantifier": "all datetimes", "why_tests_cant": "all timestamps", "anchors": ["mizarlabs/transformers/utils.py: convert_to_timestamp"]}
{"id": "C76", "title": "Local maximum to close ratio is at least one", "statement": "LocalMaxToCloseRatio is at least 1 wherever defined when high >= close > 0, and is at most the ratio of the overall maximum to the minimum.", "quantifier": "all paths and windows", "why_tests_cant": "continuum", "anchors": ["mizarlabs/transformers/features/custom.py: LocalMaxToCloseRatio.transform"]}
{"id": "C77", "title": "RSI strategies buy exactly under their documented conditions", "statement": "BarArrivalRSIStrategy.predict is 1 at a bar exactly when the RSI is strictly between its thresholds and the difference of the mean times between the last fast and the last slow bars over its maximum is strictly between the arrival thresholds; RSIConfirmation.predict is 1 exactly when the last rsi_confirmation_period RSI values are below the threshold and the moving average of the RSI has risen; both are 0 at all other bars, in particular during the warm-up.", "quantifier": "all RSI paths, index spacings, periods and thresholds", "why_tests_cant": "continuum of paths; the warm-up depends on the periods", "anchors": ["mizarlabs/transformers/technical/rsi.py: BarArrivalRSIStrategy.predict, RSIConfirmation.predict"]}
{"id": "C78", "title": "Differences of exponentially weighted averages", "statement": "ExponentialWeightedMovingAverageDifference gives the fast minus the slow exponentially weighted mean (over the fast mean plus one when normalised), which is at most the range of the prices seen; BuySellImbalance gives the same difference for buys minus sells over the volume plus one and accepts only quote and base.", "quantifier": "all paths and spans", "why_tests_cant": "continuum", "anchors": ["mizarlabs/transformers/technical/moving_average.py: ExponentialWeightedMovingAverageDifference.transform", "mizarlabs/transformers/technical/volume.py: BuySellImbalance"]}
{"id": "C79", "title": "Roll measure", "statement": "RollMeasure is twice the square root of the absolute sample covariance of consecutive price changes over the window, missing for the first window + 1 bars, never negative, unchanged by a shift of the prices and multiplied by |a| when prices are multiplied by a; RollImpact is this over the volume.", "quantifier": "all price paths and windows", "why_tests_cant": "continuum", "anchors": ["mizarlabs/transformers/microstructural_features/first_generation.py: RollMeasure.transform, RollImpact.transform"]}
{"id": "C80", "title": "Parallel loops do not depend on the schedule", "statement": "Every loop numba runs in parallel (barrier search, trend scanning, active bets, Chu-Stinchcombe-White, SADF, SDFC) ends under every interleaving of its iterations, and gives the arrays of the loop run in order, or raises when that one does.", "quantifier": "all schedules, inputs and initial contents of the output arrays", "why_tests_cant": "a test sees one schedule; races show rarely", "anchors": ["labeling.py: get_horizontal_barriers_hit", "mizarlabs/transformers/targets/trend_scanning.py: _trend_scan_each_index", "bet_sizing.py: _get_avg_active_signals", "mizarlabs/structural_breaks/sadf.py: _sadf_outer_loop", "mizarlabs/structural_breaks/sdfc.py: get_dfc_array", "mizarlabs/structural_breaks/cusum_chu_stinchcome_white.py: get_test_statistics_array"]}
{"id": "C81", "title": "Estimators report their parameters and can be cloned", "statement": "For every estimator get_params gives back the values it was made with, clone gives an equal estimator and set_params changes just the named parameter; transform does not change them.", "quantifier": "all estimators and parameter values", "why_tests_cant": "all values; tests rarely clone", "anchors": ["all classes derived from BaseEstimator: __init__"]}
{"id": "C82", "title": "A feature union keeps the index and passes the target on", "statement": "MizarFeatureUnion gives one row per row of the input with the same label, holding the features of all transformers side by side, and fit_transform(X, y) is fit(X, y) followed by transform(X).", "quantifier": "all lists of transformers, frames and targets", "why_tests_cant": "all transformers", "anchors": ["mizarlabs/model/pipeline.py: MizarFeatureUnion"]}
{"id": "C83", "title": "Sample weights reach the last step of a pipeline", "statement": "MizarPipeline.fit passes sample_weight to the fit method of the last step and to no other step, and leaves all other fit parameters alone.", "quantifier": "all step names, fit parameters and weights", "why_tests_cant": "all names", "anchors": ["mizarlabs/model/pipeline.py: MizarPipeline.fit"]}
{"id": "C84", "title": "Labels, volatility and return weights do not depend on the unit of prices", "statement": "Multiplying all close prices by a positive number leaves daily volatility, triple barrier labels with their end times and returns, and the weights by return attribution unchanged, exceptions included.", "quantifier": "all frames (missing and infinite prices included), configurations and units u > 0", "why_tests_cant": "all units; one test sees one", "anchors": ["labeling.py: TripleBarrierMethodLabeling.transform", "utils.py: get_daily_vol", "sample_weights.py: SampleWeightsByReturns"]}
{"id": "C85", "title": "Splits do not depend on the clock and a longer embargo never adds training samples", "statement": "CombPurgedKFoldCV gives the same splits when all times are shifted, or expressed in another unit together with the embargo; with a longer embargo each round tests the same samples and trains on no more samples.", "quantifier": "all sample counts, groups, times and embargoes", "why_tests_cant": "all clocks and pairs of embargoes", "anchors": ["mizarlabs/model/model_selection.py: CombPurgedKFoldCV.split"]}
{"id": "C86", "title": "Backtest paths hold out-of-sample predictions for every sample once", "statement": "Each path of combinatorial_cross_validation_paths has exactly one row per sample, in the order of the samples, with the target of that sample and the prediction and largest probability given for it by a model fitted on the training samples of a round that tests the sample and does not train on it.", "quantifier": "all models (stateful ones included), data, times, shuffles and group counts", "why_tests_cant": "all models and shuffles; a test sees one model and one random state", "anchors": ["mizarlabs/model/model_selection.py: combinatorial_cross_validation_paths"]}
{"id": "C87", "title": "Samples without evaluation time never leak", "statement": "When evaluation times are missing, a training sample before a test sample has an evaluation time and it is before the prediction time of the test sample; a test sample without evaluation time keeps later samples out of training.", "quantifier": "all prediction times in order, all patterns of missing evaluation times", "why_tests_cant": "all patterns of missing times", "anchors": ["mizarlabs/model/model_selection.py: purge", "mizarlabs/model/model_selection.py: embargo"]}
{"id": "C88", "title": "Labels feed the weights, the bootstrap and the cross validation", "statement": "The rows labelled by the triple barrier method come in time order and end at a later bar; two or more of them are accepted by AverageUniqueness (values in (0,1]), SampleWeightsByReturns (finite, not negative) and get_ind_matrix, seq_bootstrap draws any number of them, and they are a dataset as CombPurgedKFoldCV requires.", "quantifier": "all price series, volatilities, sides, configurations with positive horizon, generators and lengths", "why_tests_cant": "the chain is tested on one dataset only", "anchors": ["labeling.py: TripleBarrierMethodLabeling.transform", "average_uniqueness.py", "bootstrapping.py: get_ind_matrix, seq_bootstrap", "sample_weights: SampleWeightsByReturns"]}
{"id": "C89", "title": "Fitting on some of the events uses the overlaps among these events", "statement": "A SequentiallyBootstrappedBaggingClassifier made for all events and fitted on some of them (a fold of a cross validation, in any order) gives the same result as one made for these events only; a cold fit returns normally exactly when the times of X are event starts, the weights fit the rows and are understood by the base estimator and the parameters are valid, and then holds n_estimators estimators.", "quantifier": "all event lists with different starts whose starts and ends are bars, all subsets, orders, generators, base estimators, configurations and earlier fits", "why_tests_cant": "the tests fit on all events or compare one fold only", "anchors": ["sequentially_bootstrapped_bagging_classifier.py: SequentiallyBootstrappedBaseBagging._fit, timestamp_int_index_mapping"]}
{"id": "C90", "title": "The cached indicator matrix cannot be noticed", "statement": "Over every sequence of fits of one SequentiallyBootstrappedBaggingClassifier, failing ones included, outcomes, fitted attributes and out-of-bag results are those of fits with the indicator matrix of the current samples_info_sets.", "quantifier": "all events, bars, sequences of fits, configurations, generators and base estimators", "why_tests_cant": "the tests fit once per object", "anchors": ["sequentially_bootstrapped_bagging_classifier.py: SequentiallyBootstrappedBaseBagging.__init__, ind_mat, _fit"]}
{"id": "C91", "title": "Probabilities collected fold by fold are out of fold", "statement": "Calling _get_pred_proba_features once per validation fold, each time with the frame returned before, returns a frame with the old rows, times and columns and one column per class; each row holds the probabilities of the (last) fold it belongs to, missing values if it is in none; for folds that partition the rows nothing is missing. A model without predict_proba is refused; a time outside the frame is refused once the columns exist and adds a row of missing features in the first fold.", "quantifier": "all frames with increasing times, all lists of folds, class counts and probabilities", "why_tests_cant": "the function is not covered by a test; sequences of folds are unbounded", "anchors": ["pipeline.py: StrategySignalPipeline._get_pred_proba_features"]}
{"id": "C92", "title": "Useless metalabels are refused with the right reason", "statement": "_check_y_metalabel raises exactly when there is at least one metalabel and all are equal; for metalabels made from predictions and labels it says the primary model is always incorrect exactly when it is wrong on every sample, always correct exactly when it is right on every sample.", "quantifier": "all lists of metalabels, predictions and labels", "why_tests_cant": "the function is not covered by a test; the claim is about all label lists", "anchors": ["pipeline.py: StrategySignalPipeline._check_y_metalabel"]}
{"id": "C93", "title": "Structural break tests do not depend on the unit and level of the series", "statement": "Multiplying the tested series by a number other than zero changes neither the Dickey-Fuller Chow statistic (SupremumDickeyFullerChowStatTest) nor the explosiveness statistic (SADF) of the Dickey-Fuller specifications; when the regression has a constant, adding a number to the series does not change SADF either. The sub/super-martingale specifications do not change when a series is multiplied by a positive number, and the polynomial specification in levels does not change under any change of unit and level. Missing or infinite values and errors are preserved.", "quantifier": "for all series (any length, any missing or infinite values), lags, minimum lengths, penalties, error models and factors", "why_tests_cant": "prices in dollars, cents or satoshi give designs of very different condition; a test checks one series, not that no term of the regression has been left in an absolute unit", "anchors": ["mizarlabs/structural_breaks/sadf.py:12-297", "mizarlabs/structural_breaks/sdfc.py"]}
{"id": "C94", "title": "The recorded bootstrap rows are the rows trained on", "statement": "After any history of fits every base estimator was trained with exactly the features in estimators_features_ and the rows in sequentially_bootstrapped_samples_ recorded at its position, and the documented attribute estimators_samples_ lists the in-bag rows of each base estimator.", "quantifier": "for all histories of cold and warm fits (including fits that raise), data, weights, parameters and random draws", "why_tests_cant": "the attribute is inherited and draws again from the stored seeds: a test that looks at its shape passes; that it lists the rows of the training needs a statement about every draw", "anchors": ["mizarlabs/model/sequentially_bootstrapped_bagging_classifier.py:113-207", "mizarlabs/model/sequentially_bootstrapped_bagging_classifier.py:423-454", "mizarlabs/model/sequentially_bootstrapped_bagging_classifier.py:522-524"]}
{"id": "C95", "title": "Predicted probabilities are the mean over the fitted estimators", "statement": "For an object whose last fit returned, predict_proba gives for every row and class the mean over all base estimators of the probability of that class (zero for a class the estimator was not trained on, a vote without probabilities), whatever the number of jobs; the row is a probability distribution and predict returns the first class with the greatest mean. An object whose last fit raised does not predict, and changing n_estimators after the fit does not change predictions.", "quantifier": "for all numbers of jobs, classes, estimators with any subsets of the classes, and rows", "why_tests_cant": "tests fit on data where every bootstrap sample contains every class and never predict after a failed fit", "anchors": ["mizarlabs/model/sequentially_bootstrapped_bagging_classifier.py:113-207", "mizarlabs/model/sequentially_bootstrapped_bagging_classifier.py:391-462"]}
{"id": "C96", "title": "Every transformer works with fit_transform and in a feature union", "statement": "fit_transform(X, y) of every transformer of the package gives what transform(X) gives, and fit_transform of a MizarFeatureUnion of them gives what transform of the same union gives.", "quantifier": "for all transformers of the package, frames, targets and unions of any length", "why_tests_cant": "each transformer is tested with transform only; that every class follows the scikit-learn protocol is a statement about all classes and unions", "anchors": ["mizarlabs/model/pipeline.py:28-37", "mizarlabs/transformers/features/rolling_z_score.py:8-57", "mizarlabs/transformers/features/custom.py:6-13", "mizarlabs/transformers/targets/trend_scanning.py:60-61", "mizarlabs/transformers/trading/bet_sizing.py:20-37", "mizarlabs/transformers/sampling/down_sampling.py:6-47", "mizarlabs/transformers/sampling/average_uniqueness.py:10-38", "mizarlabs/transformers/sample_weights/__init__.py:13-140"]}
{"id": "C97", "title": "Uniqueness and bootstrap do not depend on the clock, the order of the bars or the order of the events", "statement": "Reading all times on another clock (any strictly increasing map) leaves the indicator matrix, the average uniqueness, the time-decay weights and the fit of the bagging classifier as they are; repeated, unordered or outlying bars do not change the indicator matrix; permuting the events gives every event the same uniqueness and the same time-decay weight.", "quantifier": "for all strictly increasing maps, event lists (with missing times), bar lists, training sets, configurations and permutations", "why_tests_cant": "a test compares two clocks, two bar lists or two orders on one example; the invariance is about all maps and permutations", "anchors": ["mizarlabs/model/bootstrapping.py:7-95", "mizarlabs/transformers/sampling/average_uniqueness.py:17-38", "mizarlabs/transformers/sample_weights/__init__.py:100-141", "mizarlabs/model/sequentially_bootstrapped_bagging_classifier.py:333-453"]}
{"id": "C98", "title": "Each draw of the sequential bootstrap has the probability of its average uniqueness, and every estimator gets the features and samples asked for", "statement": "With a generator of uniform numbers in [0, 1), a draw of seq_bootstrap selects sample j with probability average uniqueness of j (given the samples drawn before) over the sum for all samples, and never a sample outside the matrix; every estimator of a fit gets max_features columns of X, different ones unless bootstrap_features is set, and max_samples samples, all drawn from its own RandomState.", "quantifier": "for all matrices, generators with any state, seeds, batch sizes, numbers of features and samples", "why_tests_cant": "probabilities cannot be observed in a finite number of runs; the range and distinctness of the draws hold for all states of the generator", "anchors": ["mizarlabs/model/bootstrapping.py:139-195", "mizarlabs/model/sequentially_bootstrapped_bagging_classifier.py:36-205"]}
{"id": "C99", "title": "Class labels are encoded without loss and oob_score_ is the accuracy of the out-of-bag predictions", "statement": "fit stores the different labels in increasing order in classes_ and trains on codes that give every label back; an estimator that takes weights knows all classes, one trained on drawn rows knows them exactly if its sample contains every label; after a cold fit with weights and max_samples below the number of rows the out-of-bag decision of each row is the mean over the estimators that did not draw it; oob_score_ is the share of rows whose class has the greatest mean probability among the estimators that did not draw them.", "quantifier": "for all label vectors, fits, base estimators, samples and numbers of classes", "why_tests_cant": "which rows stay out of every bag depends on the random draws; a test looks at one score on one draw", "anchors": ["mizarlabs/model/sequentially_bootstrapped_bagging_classifier.py:184-205", "mizarlabs/model/sequentially_bootstrapped_bagging_classifier.py:340-362", "mizarlabs/model/sequentially_bootstrapped_bagging_classifier.py:582-635"]}
{"id": "C100", "title": "The daily volatility is the weighted standard deviation of the daily returns", "statement": "For bars in increasing order with positive prices and a volatility window of at least 2, the volatility of a bar is missing until the previous bar is more than one day after the first bar; from then on it is the square root of the unbiased variance of the daily returns so far with weights ((w-1)/(w+1))^d; it is never negative, and zero exactly if all daily returns so far are equal; with a window of 1 it is always missing. So events in a window without price changes are labelled 0 at expiration, and events before the first price change are labelled with its sign at the bar where it happens.", "quantifier": "for all bars, prices, windows, barrier factors and numbers of expiration bars", "why_tests_cant": "the recursion of pandas updates a mean, a covariance and three weights; tests compare a few values, and the labelling tests use one synthetic spike", "anchors": ["mizarlabs/transformers/targets/labeling.py:438-463", "mizarlabs/transformers/targets/labeling.py:149-200"]}
{"id": "C101", "title": "Returns and labels in floating point", "statement": "With prices that are floating-point numbers of p bits and every operation rounded to nearest (ties to even), the computed return close/entry - 1 is positive, negative or zero exactly if the price rose, fell or stayed; it is monotone in the price and within two relative roundings of the exact one. A triple-barrier event then ends at the first bar whose computed return is beyond a barrier or at its expiration, a profit (loss) barrier is hit only by a move in (against) the direction of the side, and the label is the one the exact prices deserve.", "quantifier": "for all precisions p >= 1, all positive representable prices, all bars, factors, volatilities >= 0 and sides 1 and -1", "why_tests_cant": "rounding errors show up for prices a few units in the last place apart, which tests with literal prices do not contain", "anchors": ["mizarlabs/transformers/targets/labeling.py:327-357", "mizarlabs/transformers/targets/labeling.py:399-431"]}
{"id": "C102", "title": "Average uniqueness in floating point", "statement": "With every operation rounded to p bits, the computed average uniqueness of a sample is in (0, 1], it equals 1 exactly if no other sample covers any of its bars, and it is the exact average up to one relative rounding per bar and two more.", "quantifier": "for all precisions p >= 1, all indicator matrices and samples with at least one and at most 2^(p-1) bars", "why_tests_cant": "the sum of reciprocals is inexact for almost all counts; tests compare with a tolerance on small matrices", "anchors": ["mizarlabs/model/bootstrapping.py:81-95", "mizarlabs/transformers/sampling/average_uniqueness.py:18-38"]}
{"id": "C103", "title": "Time-decay weights in floating point", "statement": "With every operation rounded to p bits, the time-decay weights of positive uniqueness values do not decrease, lie in [0, 1], and the newest is exactly 1; for a minimum weight of at least 0 all are positive, and for a minimum weight of 1 all are exactly 1.", "quantifier": "for all precisions p >= 3, all minimum weights from -1 + 8/2^p to 1, and all non-empty lists of positive uniqueness values", "why_tests_cant": "the newest weight is (1 - s*x) + s*x with a rounded slope s; whether it is exactly 1 for every input cannot be sampled", "anchors": ["mizarlabs/transformers/sample_weights/__init__.py:127-140"]}
{"id": "C104", "title": "Sequential bootstrap in floating point", "statement": "With the reciprocals of the concurrency counts rounded to p1 bits (single precision) and every other operation rounded to p2 bits (double precision), and with the probabilities normalised by any order of summation, a run of the sequential bootstrap never fails because the random generator refuses the rounded probabilities. It draws as many batches as without rounding, each batch with positive probabilities recomputed from all samples drawn before. A sample keeps the computed uniqueness 1 exactly as long as no drawn sample shares a bar with it, the computed uniqueness is the exact one up to one single-precision rounding and one double-precision rounding per bar and one more, and probabilities keep the order of the uniqueness.", "quantifier": "for all precisions 2 <= p1 <= p2, p2 > 26, all indicator matrices with n samples where 40 * 2^26 * n <= 2^p2 (n up to 3.3 million for doubles), all random generators, lengths, batch sizes other than 0 (length and batch size not both negative, which raises) and orders of summation", "why_tests_cant": "the generator checks that the probabilities add up to one within a tolerance; no sample of runs shows that the rounding of every reachable state stays within it", "anchors": ["mizarlabs/model/bootstrapping.py:98-136", "mizarlabs/model/bootstrapping.py:139-195"]}
{"id": "C105", "title": "What the metalabeling model sees and returns", "statement": "When a strategy pipeline has a metalabeling model, predict and predict_proba call it with one and the same frame: its columns are the model's own features, then the predicted side (if configured), then one probability per class of the primary model (if configured); its rows are exactly the times at which all own features are present and the primary model gives its values, each row holding the primary model's side and probabilities of the same time. The returned predictions and probabilities are the model's answers for these rows; without a metalabeling model both are None. The training set for the metalabeling model has the same columns, and its rows are built in the same way from the primary model's answers on the primary training set.", "quantifier": "for all pipelines, transformers that keep indices unique, classifiers, data dictionaries and label series for which the calls succeed", "why_tests_cant": "a shift of the side or of a probability column by one row or one class only shows for particular combinations of missing values, classes and options; the tests check shapes", "anchors": ["mizarlabs/model/pipeline.py:381-434", "mizarlabs/model/pipeline.py:436-547", "mizarlabs/model/pipeline.py:599-644"]}
{"id": "C106", "title": "Invalid calls raise the documented kind of exception", "statement": "Every call with the following defects raises, and with this exception: a transformer of a feature union with another number of rows than the data: ValueError; labels at a time a primary feature frame does not have: KeyError from both data set functions; bet sizing without probability or prediction column: AssertionError, with zero classes: ZeroDivisionError, with metalabeling but no side column: KeyError, with a side other than 1, -1, 0: AssertionError, with averaging but no event end column: KeyError; a labeler for metalabeling without the name of a side column, or a frame without a needed column: AssertionError; a TA-Lib docstring with two groups of optional arguments: ValueError.", "quantifier": "for all data, configurations, transformers and docstrings with the defect", "why_tests_cant": "a caller that catches an exception relies on its class for every defective input; tests check one input per check, and most of these have no test", "anchors": ["mizarlabs/transformers/pipeline.py:26-37", "mizarlabs/model/pipeline.py:316-342", "mizarlabs/transformers/trading/bet_sizing.py:100-139", "mizarlabs/transformers/targets/labeling.py:125-147", "mizarlabs/transformers/technical/factory.py:54-69"]}
{"id": "C107", "title": "The CUSUM filter keeps its meaning under rounding", "statement": "In floating point arithmetic, for a non-negative threshold, CUSUMFilter.transform selects exactly the times with an upward or downward event, never both. An event means the price has moved from an earlier price, with no event in between, by more than the threshold, up to a rounding error bounded by the length of the price path plus the threshold once per step, divided by 2^53; a move above the threshold plus that error is always selected. If the prices are multiples of one power of two (ticks of 1/4, 1/64, whole numbers) of moderate size the selection is exactly the one of the real-number filter. A higher threshold never selects more, negated prices and units changed by a power of two give the same selection.", "quantifier": "for all lists of prices with distinct times, all representable thresholds >= 0, every precision of at least one bit", "why_tests_cant": "rounding errors accumulate along the path; tests use a few fixed paths and cannot bound the deviation", "anchors": ["mizarlabs/transformers/sampling/down_sampling.py:19-47"]}
{"id": "C108", "title": "Bet sizing in floating point never fails and stays in [0,1]", "statement": "In floating point arithmetic BetSizingFromProbabilities.transform never fails its own range assertions: for probabilities in [0,1], predictions in [-1,1], sides -1, 0, 1 and at least two classes it returns sizes in [0,1], with or without averaging, metalabeling and discretisation. The size is exactly 0 at the float 1/num_classes; from probability 1/2 on it never decreases with the probability; discretised values are monotone and odd and as close to the signal as the step allows up to 12 units of rounding; an averaged size is within (k+1) units of rounding of the mean of the k active bets.", "quantifier": "for all frames of valid floats with fewer than 2^53 rows, all configurations, every precision, every library cdf with values in [0,1] and root positive on positive numbers (monotone ones for the monotonicity)", "why_tests_cant": "an assertion that fails only for some rounding pattern is not found by examples; monotonicity and error bounds range over all floats", "anchors": ["mizarlabs/transformers/trading/bet_sizing.py:25-32", "mizarlabs/transformers/trading/bet_sizing.py:100-139", "mizarlabs/transformers/trading/bet_sizing.py:142-248"]}
{"id": "C109", "title": "Counts computed through floats", "statement": "max_samples=q and max_features=q of the bagging classifier are multiplied in floating point before truncation: max_samples always resolves to an integer from 1 to n_samples or ValueError, it is floor(q * n) of the exact product or one more (only if the product rounds up to that integer), monotone in q, and 1.0 gives all samples; max_features accepts exactly the floats whose product lies in (0, n_features], so every float above 1 is rejected even though the product is rounded. Truncation may be one off the decimal product: 0.29 of 100 gives 28. The number of batches of the sequential bootstrap, int(np.ceil(len / every)), is exact for every length below 2^53: the batches cover the length and none is empty.", "quantifier": "for all fractions, all numbers of rows and columns and sample lengths below 2^b, all batch sizes and every precision b", "why_tests_cant": "an off-by-one from rounding happens only for special fractions and sizes; the tests use one fraction", "anchors": ["mizarlabs/model/sequentially_bootstrapped_bagging_classifier.py:365-386", "mizarlabs/model/bootstrapping.py:172"]}
{"id": "C110", "title": "Wider barriers and later expirations never end an event earlier", "statement": "Moving the horizontal barriers of TripleBarrierMethodLabeling further away, switching one off (factor 0 or negative) or raising num_expiration_bars never makes an event end earlier: an event that still has an end time had one before, not later. An event that ended at a horizontal barrier keeps its whole row (end time, return, label) when only the expiration is moved further away.", "quantifier": "for all frames, all pairs of parameter sets ordered by distance, with and without metalabels, missing prices and volatilities included", "why_tests_cant": "relates two runs with different parameters for every data set; tests run one set of parameters", "anchors": ["mizarlabs/transformers/targets/labeling.py:149-205", "mizarlabs/transformers/targets/labeling.py:208-287", "mizarlabs/transformers/targets/labeling.py:290-359"]}
{"id": "C111", "title": "Joint distribution of the sequential bootstrap and its advantage over uniform draws", "statement": "With independent uniform numbers seq_bootstrap returns a given sequence with the product over its draws of average uniqueness given the earlier batches over the sum for all samples. In every batch the expected average uniqueness of a draw is at least that of a uniform draw, strictly larger if two samples differ; a sample sharing no bar with the drawn ones is a most likely one and every overlapping one is less likely.", "quantifier": "for all indicator matrices, all lengths, all batch sizes, all sequences, all generators", "why_tests_cant": "a probability is not settled by sampling; the inequality is over all matrices and all histories", "anchors": ["mizarlabs/model/bootstrapping.py:98-195"]}
{"id": "C112", "title": "Predicted probabilities of the bagging classifier in floating point", "statement": "In floating point predict_proba of the fitted bagging classifier gives values in [0,1] for every number of jobs, each within n_estimators + jobs + 1 units of rounding of the exact mean; predict returns the class with the greatest exact mean whenever it leads by more than twice that; votes are counted exactly, so they do not depend on the number of jobs. (The values themselves do depend on n_jobs, and near a tie so does the predicted class.)", "quantifier": "for all probabilities in [0,1], all numbers of estimators below 2^b, all numbers of jobs, all numbers of classes, every precision b", "why_tests_cant": "the effect of the order of additions shows only for special probabilities and job counts", "anchors": ["mizarlabs/model/sequentially_bootstrapped_bagging_classifier.py:465-467"]}
{"id": "C113", "title": "The CUSUM filter misses no large move and selects few bars", "statement": "If the prices of two bars differ by more than the threshold, CUSUMFilter selects a bar after the first and not after the second; nothing is selected exactly if no two prices differ by more than the threshold; the number of selected bars times the threshold is less than the sum of the absolute price changes.", "quantifier": "for all finite price paths with distinct times and all thresholds >= 0", "why_tests_cant": "a guarantee about every pair of bars of every path; the tests look at the number of bars selected from one data set", "anchors": ["mizarlabs/transformers/sampling/down_sampling.py:19-47"]}
{"id": "C114", "title": "Further events never make an event more unique", "statement": "Adding events to the input of get_ind_matrix / AverageUniqueness leaves the average uniqueness of an event unchanged if they do not overlap it, and never raises it; it falls if an added event is alive at a recorded time of the event.", "quantifier": "for all lists of events and bars and all longer lists that contain them in the same order", "why_tests_cant": "relates two runs on different inputs; the tests look at single inputs whose events start and end at bars", "anchors": ["mizarlabs/model/bootstrapping.py:7-95", "mizarlabs/transformers/sampling/average_uniqueness.py:18-38"]}
{"id": "C115", "title": "No look-ahead through a whole pipeline", "statement": "The predictions, probabilities, sides and sizes StrategySignalPipeline returns up to a time do not depend on the data after this time, with the repository's strategies, feature unions and bet sizer as parts.", "quantifier": "for all pipelines whose fitted models, transformers and bet sizer depend on earlier rows only, all times t, and all pairs of input dictionaries with increasing times that agree up to t", "why_tests_cant": "relates two runs on different data through every step: transformers, alignment, concatenation, dropping of incomplete rows, both models and the bet sizer; the tests run one dictionary", "anchors": ["mizarlabs/model/pipeline.py:165-245", "mizarlabs/model/pipeline.py:375-597", "mizarlabs/transformers/trading/bet_sizing.py:25-139"]}
{"id": "C116", "title": "A label is decided by the bars up to its event end", "statement": "The end time, return and label TripleBarrierMethodLabeling gives an event do not depend on anything after the end time it reports; so, with these end times as evaluation times, no training label before a test sample depends on prices from that test sample on.", "quantifier": "for all frames, configurations and events, and all pairs of frames with the same bars up to the event end; for all rounds of CombPurgedKFoldCV", "why_tests_cant": "relates two runs on different later data, and chains the volatility, the labels and the purging; the tests label one frame", "anchors": ["mizarlabs/transformers/targets/labeling.py:149-205", "mizarlabs/transformers/targets/labeling.py:208-287", "mizarlabs/transformers/targets/labeling.py:290-359", "mizarlabs/transformers/targets/labeling.py:438-463", "mizarlabs/model/model_selection.py:197-316"]}
{"id": "C117", "title": "A trend-scanning label is decided by its look-forward window, not by its event end", "statement": "The row TrendScannerLabeling.transform gives an event is decided by the bars of its look-forward window alone: the bars before and after it, the other events and the place of the window in the series have no effect. The claim a user would make, that it is decided by the bars up to the event end it reports, is false: the end is chosen after looking at later bars.", "quantifier": "for all series, events, windows lengths (step one) and all pairs of series with the same look-forward window", "why_tests_cant": "relates two runs on different data; the tests label one series", "anchors": ["mizarlabs/transformers/targets/trend_scanning.py:63-147", "mizarlabs/transformers/targets/trend_scanning.py:149-209", "mizarlabs/transformers/targets/trend_scanning.py:212-268"]}
{"id": "C118", "title": "Training sets do not look ahead and purged training samples do not change with the test data", "statement": "The rows of create_dataset_primary and create_dataset_metalabeling up to a time (which rows there are, features and targets) do not depend on data and labels after this time; one row depends on the data up to its time and its own label only. With labels from the triple-barrier method and CombPurgedKFoldCV, a training sample before a test sample keeps its features and its label when prices and data change from the bar of the test sample on.", "quantifier": "for all pipelines with causal transformers (and a causal primary model for the metalabeling set), all pairs of data that agree up to a time, all labels, all rounds of the cross validation", "why_tests_cant": "relates two runs on different later data through transformers, alignment, labelling and purging; the tests build one training set from one data set", "anchors": ["mizarlabs/model/pipeline.py:316-342", "mizarlabs/model/pipeline.py:381-434", "mizarlabs/model/pipeline.py:599-680", "mizarlabs/transformers/targets/labeling.py:149-205", "mizarlabs/model/model_selection.py:197-316"]}
{"id": "C119", "title": "Positions opened live are the positions of the backtest", "statement": "create_position of StrategyTrader on two dictionaries of data that agree up to a time t gives the same rows up to t (which rows there are, side, size, stop loss, profit taking, number of bars) and writes the same values into the data up to t. So running the trader at time t on the data known then gives, for every time up to t, the row of a run on all data.", "quantifier": "for all traders whose pipeline has causal transformers, models and bet sizer, all volatility windows, factors and alignment names, all pairs of data that agree up to a time", "why_tests_cant": "relates two runs on different later data through features, alignment, prediction, bet sizing, volatility and the outer join; the tests run the trader once on one data set", "anchors": ["mizarlabs/model/pipeline.py:694-857", "mizarlabs/model/pipeline.py:549-597", "mizarlabs/transformers/targets/labeling.py:438-470"]}
{"id": "C120", "title": "Averaging active bets does not look ahead", "statement": "The averages of avg_active_signals up to a time T, and the sizes of BetSizingFromProbabilities with average_active up to T, depend only on what is known at T: the start and size of the bets opened by then and the ends that have passed. Bets opened later and the later ends of open bets do not change them, although the ends are given in advance.", "quantifier": "for all books of bets with any sizes (missing ones too), all times T, all configurations with averaging", "why_tests_cant": "relates two runs on different later bets and different later ends; the tests average one book", "anchors": ["mizarlabs/transformers/trading/bet_sizing.py:100-139", "mizarlabs/transformers/trading/bet_sizing.py:142-226"]}
{"id": "C121", "title": "The CUSUM filter starts afresh at every selected bar", "statement": "Cutting the bars at a selected bar (the second piece begins with it) and filtering both pieces gives the selection of the whole: selections after a selected bar do not depend on the bars before it, so the filter can be continued from the last selected bar. The same holds at a missing price, across which no move is seen. In floating point it holds too.", "quantifier": "for all price paths including missing and infinite prices, all thresholds, all selected bars", "why_tests_cant": "the two sums are reset one at a time, so restarting is an invariant over all paths; the tests run the filter once on one path", "anchors": ["mizarlabs/transformers/sampling/down_sampling.py:19-47"]}
{"id": "C122", "title": "The weights of an event are known at its end", "statement": "The average uniqueness and the weight by return of an event depend only on what is known when it ends: the events started by then, the ends that have passed, and the prices so far. Later events, and later ends of events still open, change neither. So the uniqueness of a training sample of a purged round is known before every later test sample of the round. The same holds for the weights by time decay.", "quantifier": "for all sets of events, all times, all events ended by then, all continuations", "why_tests_cant": "the concurrency is computed over the whole set of events at once; the tests use one set of events and never extend it", "anchors": ["mizarlabs/transformers/sampling/average_uniqueness.py", "mizarlabs/transformers/sample_weights/__init__.py:35-97", "mizarlabs/transformers/sample_weights/__init__.py:127-140", "mizarlabs/model/bootstrapping.py", "mizarlabs/model/model_selection.py"]}
{"id": "C123", "title": "The order of the rows and the division of a bet do not matter", "statement": "The same bets in another order give the same averaged series, and the bet sizer with averaging gives the same result or exception for the same rows in another order. A bet divided into two consecutive bets of the same size gives the same average at all other times. Likewise the weights by return do not depend on the order of the rows. In floating point the same holds.", "quantifier": "for all bets of any size including NaN and infinite ones, all permutations, all times of division after 1970", "why_tests_cant": "the average is a loop over the rows in their order; the tests use one order and never divide a bet", "anchors": ["mizarlabs/transformers/trading/bet_sizing.py:100-226", "mizarlabs/transformers/sample_weights/__init__.py:35-97"]}
{"id": "C124", "title": "Long and short bets mirror each other in the labels", "statement": "With metalabeling, turning all sides around and exchanging the profit-taking and stop-loss factors leaves all event ends as they are, negates the returns and turns label 1 into 0 and back (expirations with fixed label 0 stay 0); exceptions are the same. Without metalabeling the frame is the same. On the price path mirrored at the price of an event, with exchanged factors, the event ends at the same time with opposite return and label.", "quantifier": "for all frames, sides of any value including missing ones, all factors including non-positive ones, all price paths", "why_tests_cant": "the symmetry relates the two comparisons in the barrier loop, the NaN barriers and the label assignment on all paths; the tests have fixed sides and never compare a bet with its opposite", "anchors": ["mizarlabs/transformers/targets/labeling.py:149-205", "mizarlabs/transformers/targets/labeling.py:208-359", "mizarlabs/transformers/targets/labeling.py:362-435"]}
{"id": "C125", "title": "Features need only a limited history", "statement": "A feature computed on the recent bars alone agrees, from a stated position on, with the feature on the whole history: z-scores and ratios of the window need window - 1 earlier bars, the price-impact and two-bar range estimators one more, the Roll measure two more, VPIN its window, the unfilled crossover side one more than its longer window; strategies add a stated number to the memory of their indicator. Exceptions are the same. Exponentially weighted features never forget exactly, but the effect of dropped history decays geometrically with the position.", "quantifier": "for all frames, windows and numbers of dropped bars", "why_tests_cant": "a user who computes features on a live tail of the data relies on it for every window and every tail length; tests compute each feature once on one frame", "anchors": ["mizarlabs/transformers/features/rolling_z_score.py:21-57", "mizarlabs/transformers/features/custom.py:10-13", "mizarlabs/transformers/microstructural_features/first_generation.py:29-248", "mizarlabs/transformers/microstructural_features/second_generation.py:37-129", "mizarlabs/transformers/microstructural_features/vpin.py:48-82", "mizarlabs/transformers/technical/moving_average.py:52-145", "mizarlabs/transformers/technical/rsi.py:44-124", "mizarlabs/transformers/technical/macd.py:36-40"]}
{"id": "C126", "title": "More history and shorter windows never lower the explosiveness statistic", "statement": "Raising min_length makes the explosiveness test start later and gives at every bar a statistic that is at most the one with the smaller min_length (unless that is missing). Adding values at the start of the series keeps every bar of the result, and no statistic becomes lower.", "quantifier": "for all series, with missing and infinite values, all models and error conventions of the least squares routine", "why_tests_cant": "the statistic is a supremum over windows, and the claim compares two runs over different sets of windows with differently numbered trends; tests compare one run with one table", "anchors": ["mizarlabs/structural_breaks/sadf.py:62-131", "mizarlabs/structural_breaks/sadf.py:156-242", "mizarlabs/structural_breaks/sadf.py:269-297"]}
{"id": "C127", "title": "Aligning twice changes nothing, and aligning in steps is aligning at once", "statement": "Features that have been aligned to the leading index are returned unchanged when they are aligned again. Aligning to a fine index and then to a coarser one that is part of it gives the same features as aligning to the coarser one at once.", "quantifier": "for all feature dictionaries (with missing and infinite values), aggregations and alignment indices", "why_tests_cant": "a law that relates two or three runs of the alignment on each other's results; tests align one dictionary once", "anchors": ["mizarlabs/model/pipeline.py:165-245"]}
{"id": "C128", "title": "A few more or other estimators cannot move a bagging prediction far", "statement": "Adding m estimators to n (as a warm start does) moves the predicted probability of every class of every row by at most m/(n+m); exchanging m of n estimators moves it by at most m/n; the order of the estimators and the number of jobs do not matter. A class that leads all others by more than m/n is still predicted after m further estimators. The bounds cannot be improved.", "quantifier": "for all numbers of estimators, classes and jobs, all base estimators (with or without probabilities, knowing all or some of the classes) and all rows", "why_tests_cant": "a bound on the difference between two models of any size; tests fit one model and look at one score", "anchors": ["mizarlabs/model/sequentially_bootstrapped_bagging_classifier.py:294-467"]}
{"id": "C129", "title": "Fitting is reproducible for every kind of random_state", "statement": "With an integer as random_state, a fit gives the same estimators whatever was fitted before. With a RandomState object (or None, the generator of numpy.random) every fit that trains takes exactly n_estimators numbers from the generator, so fits one after the other use disjoint stretches of it; the same fit gives the same estimators, and a warm start gives those of a fit from scratch.", "quantifier": "for all base estimators, data, parameters, streams of random numbers and sequences of fits", "why_tests_cant": "concerns sequences of calls that share a generator, and all generators; tests use an integer or look at scores", "anchors": ["mizarlabs/model/sequentially_bootstrapped_bagging_classifier.py:294-462"]}
{"id": "C130", "title": "Several splits of one cross-validator may run at the same time", "statement": "Generators obtained from split of one CombPurgedKFoldCV object may be advanced in any order (nested loops, zip, one abandoned half-way): each gives exactly the rounds of split in order and then stops. A generator over data of another length than the time series raises IndexError at its first next and gives no round.", "quantifier": "for all numbers of rows, groups and test folds, time series, embargoes, collections of generators and orders of next calls", "why_tests_cant": "the generators share the mutable attribute indices of the cross-validator, so the claim is about all interleavings; tests exhaust one generator", "anchors": ["mizarlabs/model/model_selection.py:149-195", "mizarlabs/model/model_selection.py:301-334"]}
{"id": "C131", "title": "VPIN in floating point stays between 0 and 1 and close to the exact quotient", "statement": "VPIN.transform with floating-point arithmetic: every value after the first windows is a number between 0 and 1 and within a stated bound of the exact quotient of window imbalance and window volume; a window without volume gives 0; volumes that are whole numbers (or multiples of a power of two) give the exact quotient rounded once; changing the unit of volume by a power of two changes nothing; if everything was bought the value is 1.", "quantifier": "for all lengths, windows, precisions and columns of volumes, buy and sell volumes with |buy - sell| <= volume", "why_tests_cant": "pandas carries one compensated sum along the whole series, so rounding errors of earlier rows reach later windows; tests compare a few values with a tolerance", "anchors": ["mizarlabs/transformers/microstructural_features/vpin.py:58-76"]}
{"id": "C132", "title": "Moving averages and their crossings in floating point", "statement": "MovingAverageCrossOver.transform with floating-point arithmetic gives the signals of the exact averages; rolling means have the sign of their values and stay within a stated bound of the exact mean; changing the unit of the price by a power of two changes no signal.", "quantifier": "for all lengths, windows, precisions, indexes and columns of prices", "why_tests_cant": "the averages are carried along the series with rounding errors and then compared; tests use a few well separated prices", "anchors": ["mizarlabs/transformers/technical/moving_average.py:52-97", "mizarlabs/transformers/microstructural_features/second_generation.py:44-46", "mizarlabs/transformers/microstructural_features/first_generation.py:126-165"]}
{"id": "C133", "title": "Rolling standard deviations and z-scores in floating point", "statement": "RollingZScoreTransformer with floating-point arithmetic: variances are never negative and there exactly for complete windows of two or more rows, stay within a stated bound of the exact variance, are 0 for a column that never changes, and z-scores do not depend on the unit; the variance of a window depends only on the window.", "quantifier": "for all lengths, windows, precisions and columns, and for both orders in which pandas takes values out and puts them in", "why_tests_cant": "mean and squared deviations are carried along the series with rounding errors, so that a value depends on all rows before the window; tests use short series of similar numbers", "anchors": ["mizarlabs/transformers/features/rolling_z_score.py:33-44"]}
{"id": "C134", "title": "Exponentially weighted means in floating point", "statement": "ExponentialWeightedMovingAverageDifference with floating-point arithmetic: the means of a column that never changes are that number, so that the difference is 0; means of non-negative numbers are not negative; means and difference stay within a bound of the exact ones that does not grow with the length of the series, so the sign of the difference is right unless it is tiny; the unit does not matter; the means lie between the numbers averaged and approach a price that no longer moves.", "quantifier": "for all lengths, spans, precisions, columns and positions of missing values", "why_tests_cant": "the means are carried along the series with rounding of weights, products and quotients; tests use short series and compare with a tolerance", "anchors": ["mizarlabs/transformers/technical/moving_average.py:134-145", "mizarlabs/transformers/technical/volume.py:20-35"]}
{"id": "C135", "title": "Daily volatility in floating point", "statement": "The daily volatility of the labelling with floating-point arithmetic: a variance is never negative, and 0 exactly if all returns so far are the same number; so it is 0 while the price grows by the same factor or does not move; variance and volatility stay within a bound of the exact ones that does not grow with the length of the series; the unit of the prices does not matter; missing returns change nothing but the weights.", "quantifier": "for all lengths, spans, precisions, prices, bar times, and square roots with a small relative error", "why_tests_cant": "mean, covariance and three sums of weights are carried along the series, each rounded several times per bar, and the variance is a quotient of differences of the sums; tests compare short series with a tolerance", "anchors": ["mizarlabs/transformers/targets/labeling.py:438-463", "mizarlabs/transformers/targets/labeling.py:164-168"]}
{"id": "C136", "title": "Roll's measure and Kyle's lambda in floating point", "statement": "RollMeasure, RollImpact and KyleLambda with floating-point arithmetic: missing exactly where the exact ones are; the covariance of successive price changes stays within a bound of the exact one that grows linearly with the position and with the square of the largest price change, Roll's measure within the corresponding bound; on prices in ticks a steady trend has the measure zero whatever came before; Kyle's lambda is never negative and within a bound of the exact one; prices in another unit (a power of two) change the results by that unit only.", "quantifier": "for all lengths, windows, precisions, prices, volumes, and square roots with a small relative error", "why_tests_cant": "pandas makes the rolling covariance of three rolling means, each a compensated sum carried along the whole series, and subtracts nearly equal numbers; what is left of the digits depends on the whole history", "anchors": ["mizarlabs/transformers/microstructural_features/first_generation.py:29-36", "mizarlabs/transformers/microstructural_features/first_generation.py:66-70", "mizarlabs/transformers/microstructural_features/second_generation.py:37-47"]}
{"id": "C137", "title": "High-low and log-return estimators in floating point", "statement": "ParkinsonVolatility, CorwinSchultzSpread, BeckersParkinsonVolatility, AmihudLambda and HasbrouckLambda with floating-point arithmetic and with logarithms, roots and exponentials that are off by a unit in the last place: which results are missing; Parkinson's volatility and the lambdas are never negative, the spread is between 0 and 2; the error of Parkinson's volatility, of beta and of the lambdas grows at most linearly with the position, that of the spread and of the Beckers-Parkinson volatility with its square root; the spread is missing only where beta has become negative, which cannot happen while the bars are wide enough; a market that was always flat has volatility and spread 0; the prices' unit does not matter.", "quantifier": "for all lengths, windows, precisions, prices and volumes, and all logarithms, square roots and exponentials of the stated accuracy", "why_tests_cant": "two nested rolling windows with compensated sums carried along the whole series, then a root of what may be a small negative remainder; whether the sign survives depends on the whole history", "anchors": ["mizarlabs/transformers/microstructural_features/first_generation.py:98-110", "mizarlabs/transformers/microstructural_features/first_generation.py:113-165", "mizarlabs/transformers/microstructural_features/first_generation.py:196-205", "mizarlabs/transformers/microstructural_features/first_generation.py:236-248", "mizarlabs/transformers/microstructural_features/second_generation.py:78-87", "mizarlabs/transformers/microstructural_features/second_generation.py:118-129"]}
{"id": "C138", "title": "Sample weights by return in floating point", "statement": "SampleWeightsByReturns.transform with floating-point logarithms, differences, quotients and sums, whatever the order in which np.sum adds: every event gets a weight that is present and not negative; it is off by at most (9 + 3 d) m T / 2^p, where m is the number of bars in the life span, T bounds the logarithms of the prices and each return goes through at most d additions; an event during which the price does not move has the weight 0 exactly; prices outside the life span do not matter, except the one just before it; a missing event end raises.", "quantifier": "for all events, prices (positive or missing), precisions, orders of addition and logarithms of the stated accuracy", "why_tests_cant": "np.sum adds in blocks and pairs that depend on the number of bars, so no test fixes the order of the additions; the error grows with life span and concurrency", "anchors": ["mizarlabs/transformers/sample_weights/__init__.py:35-97"]}
{"id": "C139", "title": "RSI strategies in floating point", "statement": "RSIConfirmation.predict and BarArrivalRSIStrategy.predict with floating-point rolling means, differences and quotients. Confirmation: the signal of bar i is the exact one if the indicator differs from what it was ma bars before by more than 52 ma (i+1) M / 2^p, M a bound of the indicator; on whole ticks with 2 ma ma T < 2^p all signals are exact. Arrival: if the windows span less than 2^p nanoseconds, the signals are exact unless the normalised difference of the mean times between bars is within 5 G / (2^p max_diff) of a threshold, G a bound of the means; a signal with a lower threshold of 0 or more means that bars do arrive slower lately than over the long window, and conversely; bars that arrive evenly have a difference of exactly 0.", "quantifier": "for all indicators, indexes, parameters and precisions", "why_tests_cant": "signals depend on strict comparisons of rolling means that carry the rounding errors of every bar before; tests only see values far from ties", "anchors": ["mizarlabs/transformers/technical/rsi.py:44-75", "mizarlabs/transformers/technical/rsi.py:107-124"]}
{"id": "C140", "title": "Volume imbalance, mean reversion, local maximum and MACD crossings in floating point", "statement": "With floating-point arithmetic: BuySellImbalance turns its sign exactly when buyers and sellers are exchanged, is exactly 0 when volumes do not change or as much is bought as sold, and is off by at most 32 ((fast+1)^2+(slow+1)^2) M / 2^p / (volume+1) at every bar; the normalised ExponentialWeightedMovingAverageDifference x is off by at most 16 ((fast+1)^2+(slow+1)^2) (M+1) (1+|x|) / 2^p. MeanReversionStrategy buys only below the average and sells only above it, its signal does not rise with the close, does not depend on the unit (powers of two) and is exact unless the deviation is within 3/2^p of itself from the threshold. LocalMaxToCloseRatio is the exact ratio rounded once, at least 1, and 1 exactly if no high of the window is above the close. MACDHistogramCrossOver is not touched by rounding.", "quantifier": "for all columns, lengths, spans, windows, thresholds and precisions", "why_tests_cant": "the results depend on long chains of rounded operations and on strict comparisons; tests compare short series with a tolerance", "anchors": ["mizarlabs/transformers/technical/volume.py:20-35", "mizarlabs/transformers/technical/mean_reversion.py:19-28", "mizarlabs/transformers/technical/moving_average.py:134-145", "mizarlabs/transformers/features/custom.py:10-13", "mizarlabs/transformers/technical/macd.py:36-40"]}
{"id": "C141", "title": "A complete strategy pipeline answers", "statement": "A StrategySignalPipeline whose transformers have the keys of the data, whose frame to align on belongs to the primary model and whose other keys have an alignment method (mean, min or max) computes its features. If in addition all frames reach the first bar of the frame to align on, the models are fitted and answer on every non-empty frame without missing values, and some bar has all features, then predict and predict_proba return, with no missing value, and cover every bar with all features; get_side_and_size returns and gives every such bar a side and a size (the metalabeling model having the class 1, or the bet sizer sizing each row). create_dataset_primary and create_dataset_metalabeling return when each labelled bar has a row without infinite values in every frame and one of these rows is complete; the data sets have exactly the labelled bars with all features.", "quantifier": "for all configurations, models, transformers, frames and labels", "why_tests_cant": "a test shows that one configuration works; that none of the raising branches is reached holds for all valid configurations only by proof", "anchors": ["mizarlabs/model/pipeline.py:165-245", "mizarlabs/model/pipeline.py:316-342", "mizarlabs/model/pipeline.py:381-547", "mizarlabs/model/pipeline.py:549-680"]}
{"id": "C142", "title": "The Chu-Stinchcombe-White test in floating point", "statement": "With rounding after every operation, a correctly rounded square root, a logarithm off by at most one unit in the last place and sums in any order, ChuStinchcombeWhiteStatTest.run on a complete series of floats returns and raises exactly as in exact arithmetic. While the series is constant (NumPy division) the statistic is minus infinity; afterwards it is the exact supremum of C66 up to the relative error 2 (d + 8) / 2^p, where d is the greatest number of additions a summand goes through, whatever the sizes and signs of the values; the critical value belongs, up to ten units in the last place, to a position whose exact departure is the greatest up to rounding. If the greatest departure is separated from the others by more than the rounding, the critical value belongs to the same position and the decision is the exact one outside the rounding of both sides. Exactly, with rounding: the two-sided statistic is the greater of the one-sided ones; changing all signs exchanges the one-sided tests; multiplying by a power of two changes no bit.", "quantifier": "for all complete series of floats (mirror, scale and exact arithmetic: all series), precisions of at least 8 digits and orders of summation", "why_tests_cant": "a test compares a few statistics with a tolerance; the bound on the error and the exact laws concern all series", "anchors": ["mizarlabs/structural_breaks/cusum_chu_stinchcome_white.py:15-64", "mizarlabs/structural_breaks/cusum_chu_stinchcome_white.py:67-87", "mizarlabs/structural_breaks/cusum_chu_stinchcome_white.py:109-126"]}
{"id": "C143", "title": "Regressions in floating point", "statement": "With rounding after every operation, and matrix products and inverses computed in any way that treats opposite numbers and different exponents alike: multiplying a series by a power of two changes no bit of any row of the trend scanner, of any statistic of the Chow-type Dickey-Fuller test, and of the explosiveness tests without trend and constant or with sm_poly_1; negating it negates t-values and labels of the trend scanner with step one exactly, and changes no bit of the Chow-type test and of the explosiveness tests with no, linear or quadratic trend and sm_poly_1. Products added from left to right and LAPACK's inverse of order one and two are of this kind. Without rounding the computations are those of C67, C68 and C71. The label of a price that does not move does depend on its level in double precision, unlike in exact arithmetic: at 7 the scanner raises, at 100 there is no trend, at 99.99 a downward one.", "quantifier": "for all series, also with missing and infinite values, all parameters, states of the memory, roundings that treat signs and exponents alike, and both error models", "why_tests_cant": "a test compares a few statistics with a tolerance; that no bit changes concerns all series and whatever linear algebra library is installed", "anchors": ["mizarlabs/transformers/targets/trend_scanning.py:103-268", "mizarlabs/structural_breaks/sdfc.py:14-93", "mizarlabs/structural_breaks/sadf.py:62-297"]}
{"id": "C144", "title": "The log-uniform distribution in floating point", "statement": "For floats 0 < a < b, with every division rounded and a logarithm off by at most one unit in the last place that does not decrease, log_uniform(a, b).cdf gives every number a probability between 0 and 1 that never decreases, is 0 up to a, positive at every float above a, and 1 from b on; it is never NaN, although a and b may be neighbours. It differs from the exact distribution function by at most (8 + 16 / log(b / a)) / 2^p. Multiplying bounds and argument by the same number changes no bit. A number below b can have probability one.", "quantifier": "for all floats 0 < a < b, all arguments, precisions and logarithms as described", "why_tests_cant": "a test evaluates a few points with a tolerance; the bound, monotonicity and definedness for neighbouring bounds concern all floats", "anchors": ["mizarlabs/model/model_selection.py:337-345"]}
{"id": "C145", "title": "The alignment of features in floating point", "statement": "With every sum and quotient of the means rounded to p bits, in whatever order the rows are added, aligning the features of a strategy raises exactly where exact arithmetic raises and with the same error. Otherwise keys, columns, times and the places of missing and infinite values are the same, and every number is within 2(d+1) V / 2^p of the exact one (V bounds the features, d the additions a row goes through). Minimum and maximum do not round. With at most two rows between two alignment times no aligned value leaves an interval of floats that holds the features. Multiplying all features by a power of two multiplies every aligned value exactly; negating them with minimum and maximum exchanged negates every aligned value. With three rows the mean of a constant feature need not be that constant.", "quantifier": "for all feature dictionaries with missing and infinite values, alignment methods and names, precisions and orders of addition", "why_tests_cant": "a test aligns a few frames of small integers whose means are exact; the bound, the equal errors and the symmetries concern all floats", "anchors": ["mizarlabs/model/pipeline.py:111-115", "mizarlabs/model/pipeline.py:165-245"]}
{"id": "C146", "title": "The CUSUM filter in float64 with underflow and overflow", "statement": "In binary floating point with a bounded exponent (subnormal numbers, infinite results of overflow), with a non-negative threshold and prices of the format, missing and infinite prices included, CUSUMFilter selects exactly the bars it selects in arithmetic with as many bits and an unbounded exponent. Hence the events are those of the price moves since the last event up to the rounding error of the additions, a higher threshold never selects more, negated prices give the same selection, and prices and threshold in another unit by a power of two give the same selection as long as they are numbers of the format. An infinite or missing threshold selects nothing.", "quantifier": "for all formats, thresholds and price series", "why_tests_cant": "differences that overflow or underflow need prices a test does not use, and the claim is about all series", "anchors": ["mizarlabs/transformers/sampling/down_sampling.py:19-47"]}
{"id": "C147", "title": "Triple-barrier events in float64 with underflow and overflow", "statement": "In binary floating point with a bounded exponent whose range is wide against its precision (float64 and float32 are), with positive prices of the format, side 1 or -1 and a non-negative volatility, the return of an event is the one computed with an unbounded exponent, shown as infinite if it is too large, and has the sign of the price move. As long as the two barriers do not overflow, the event ends at the first bar beyond a barrier, otherwise at its expiration, with the label that the prices deserve: returns that overflow, quotients that underflow and barriers that underflow change nothing. A barrier that overflows is not passed by any return.", "quantifier": "for all formats, price series, barriers, sides and flags", "why_tests_cant": "overflow and underflow need prices a test does not use, and the claim is about all series", "anchors": ["mizarlabs/transformers/targets/labeling.py:158-200", "mizarlabs/transformers/targets/labeling.py:233-266", "mizarlabs/transformers/targets/labeling.py:327-357", "mizarlabs/transformers/targets/labeling.py:399-431"]}
{"id": "C148", "title": "What direction a trend-scanning label stands for", "statement": "With step 1, complete values and first min_sample_length values that are not on a line, the label of an event is the sign of the moves between all pairs of bars of the reported window, each weighted with the time between the two bars. So a price that never falls in the look-forward window gets label 1 and a return that is not negative, one that never rises gets -1 and a return that is not positive. In general the label need not have the sign of the return in the same row. If the first min_sample_length values of some event with enough bars are on a line, transform raises ZeroDivisionError under numba's default error model; under NumPy's the row of a straight window has an infinite t-value and the direction of the line.", "quantifier": "for all series, events, window parameters and states of uninitialised memory", "why_tests_cant": "tests use a few series; that every monotone window gets its direction for every choice of windows, and exactly when the call fails, is about all series", "anchors": ["mizarlabs/transformers/targets/trend_scanning.py:102-147", "mizarlabs/transformers/targets/trend_scanning.py:232-268", "mizarlabs/structural_breaks/sdfc.py:41-60"]}
{"id": "C149", "title": "Own features of a metalabeling model reach the model", "statement": "Every column that the feature transformers of the metalabeling model produce is in the data set of create_dataset_metalabeling, and in the frame that predict and predict_proba give to the metalabeling model, at its own position, under its own name, with its own values, and no two columns of the frame have the same name.", "quantifier": "all pipelines, data sets, labels and feature frames", "why_tests_cant": "tests use feature names that do not collide with the names primary_side_pred and primary_side_pred_proba_i which the pipeline writes", "anchors": ["mizarlabs/model/pipeline.py:381-434"]}
{"id": "C150", "title": "Underflow and overflow play no part in uniqueness, bootstrap and weights", "statement": "Average uniqueness, the probabilities, checks and draws of seq_bootstrap and the time-decay weights computed in float64 (with the single precision division in float32) are those of arithmetic without bounds on the exponent: no intermediate result is infinite or denormal.", "quantifier": "all indicator matrices of up to three million samples, generators, orders of summation, lengths and batch sizes below 2^53, minimum weights above -1 and up to 1", "why_tests_cant": "tests compare a few values; whether any intermediate result can leave the range of the format depends on all sizes at once", "anchors": ["mizarlabs/model/bootstrapping.py:81-195", "mizarlabs/transformers/sample_weights/__init__.py:131-140"]}
{"id": "C151", "title": "The label of a bar is the outcome of the position opened at this bar", "statement": "With the same factors, expiration bars and volatility on the same bars, the metalabel of a bar for the position's side has as its end time the bar at which the position that create_position writes there ends by its own stop_loss, profit_taking and num_expiration_bars columns, and it is 1 if the position has made money there and 0 if it has lost money; a position without levels has no label.", "quantifier": "all frames of bars, signals, factors, prices with gaps, volatilities, sides and numbers of bars", "why_tests_cant": "labels and positions are computed by two classes that share no code; tests look at each alone, and agreement must hold for every path of prices", "anchors": ["mizarlabs/transformers/targets/labeling.py:149-205", "mizarlabs/transformers/targets/labeling.py:240-290", "mizarlabs/model/pipeline.py:783-850"]}
{"id": "C152", "title": "Trend-scanning labels can be weighted, bootstrapped and cross-validated, and purging keeps test prices out of the training labels", "statement": "On increasing bars and events the rows of TrendScannerLabeling with an end time start in increasing order and end at a later bar; two or more of them can be given to AverageUniqueness, get_ind_matrix and seq_bootstrap without an error, and with event starts and ends they are a dataset as CombPurgedKFold requires it; the label of a training event before a test event does not depend on the values from the test event's bar on.", "quantifier": "all series, events, steps and parameters with 2 <= min_sample_length < look_forward_window; for purging all numbers of folds, embargos and pairs of series", "why_tests_cant": "labels, weights and splits are tested apart and on synthetic end times; leakage through the choice of the window shows only when test prices are varied against the split", "anchors": ["mizarlabs/transformers/targets/trend_scanning.py:124-147", "mizarlabs/transformers/targets/trend_scanning.py:212-268", "mizarlabs/model/model_selection.py:172-195", "mizarlabs/model/bootstrapping.py:1-60"]}
{"id": "C153", "title": "The project's bet sizer works inside a pipeline and gives a valid signal", "statement": "With BetSizingFromProbabilities as bet_sizer, get_side_and_size returns a row for each row of the metalabeling model with a side: the primary prediction as side and, as size, the (discretised) confidence in the most probable metalabel times this class and the side, so 0 unless class 1 is the more probable; without a metalabeling model the confidence in the primary model's class; and whenever create_signal returns on such a pipeline, or on one sized by probabilities, strategy_valid is True.", "quantifier": "all pipelines, data, probabilities in [0,1], classes in [-1,1], bet sizer parameters and histories", "why_tests_cant": "pipeline tests use a stub or no bet sizer, and the bet sizer's tests hand over frames of their own", "anchors": ["mizarlabs/model/pipeline.py:549-597", "mizarlabs/model/pipeline.py:745-783", "mizarlabs/transformers/trading/bet_sizing.py:25-139"]}
{"id": "C154", "title": "Bet sizes and bagging probabilities in float64 with underflow and overflow", "statement": "In IEEE binary arithmetic with bounded exponent (float64, float32) BetSizingFromProbabilities gives the same sizes as with unbounded exponents for every float probability, however close to 0, 1 or 1/num_classes; averaged and discretised sizes are finite numbers in [0,1] and averages keep the error bound of C108; discretisation needs a step of at least the smallest normal number. predict_proba of the bagging classifier gives a finite number in [0,1] with the error bound of C112, votes give the correctly rounded share, and predict returns a class that leads by twice the bound.", "quantifier": "all formats wide enough, frames, configurations, numbers of estimators and jobs", "why_tests_cant": "extreme probabilities near the ends of the exponent range do not occur in test data, and what holds for all floats is not settled by some", "anchors": ["mizarlabs/transformers/trading/bet_sizing.py:25-248", "mizarlabs/model/sequentially_bootstrapped_bagging_classifier.py:465-467"]}
{"id": "C155", "title": "Sample weights in float64 with underflow and overflow", "statement": "In IEEE binary arithmetic with bounded exponent (float64, float32) the average uniqueness of a sample with bars is a finite number in (0,1], 1 exactly if no other sample overlaps it, with the error bound of C102; a sample without bars has NaN. The time-decay weights for a minimum weight above -1 and up to 1 are finite, and from just above -1 they are in [0,1], do not decrease, and the newest is exactly 1. The weights by return are finite and not negative for positive or missing float prices, however extreme, in whatever order numpy adds, with the error bound of C138. No intermediate result underflows or overflows.", "quantifier": "all formats wide enough, indicator matrices, event lists, prices and orders of addition", "why_tests_cant": "prices near the ends of the exponent range and minimum weights next to -1 do not occur in test data, and the order of numpy's additions depends on the length of the array", "anchors": ["mizarlabs/model/bootstrapping.py:81-95", "mizarlabs/transformers/sample_weights/__init__.py:35-140"]}
{"id": "C156", "title": "The bar arrival strategy predicts one side for each bar, in the order of the bars", "statement": "BarArrivalRSIStrategy.predict and predict_proba return one row for each row of the frame, in the same order, and row i is the decision for bar i.", "quantifier": "all frames (bars in any order, times shared by several bars), indicators, thresholds and windows", "why_tests_cant": "a test frame has increasing distinct times; whether the rows still belong to the bars when dynamic bars share a time or the newest bar comes first depends on how pandas joins the conditions", "anchors": ["mizarlabs/transformers/technical/rsi.py:44-82"]}
{"id": "C157", "title": "Labels look forward in time whatever the order of the rows", "statement": "Every event that the labeling transformer labels ends after it starts, and its label is the sign of the move from its start to its end; a frame whose rows are not in order of time is refused.", "quantifier": "all frames (any times, any order of rows), prices, sides, volatilities and settings", "why_tests_cant": "the unit tests label one frame sorted by time; whether a frame given newest first is refused, sorted or labelled backwards depends on shift, on an empty time window and on what reindex accepts", "anchors": ["mizarlabs/transformers/targets/labeling.py:149-205", "mizarlabs/transformers/targets/labeling.py:362-435"]}
{"id": "C158", "title": "Bars that share a time can be aligned and trained on", "statement": "Aligned features give bars of the same time the same values, and a training set has one row for every labelled bar with complete features, also when several bars share a time.", "quantifier": "all frames, alignment times and targets, with any repetitions and in any order, and all aggregation methods", "why_tests_cant": "test data has one row per time; dynamic bars often share a time stamp, and what assignment and selection by label do then is only visible for such data", "anchors": ["mizarlabs/model/pipeline.py:199-243", "mizarlabs/model/pipeline.py:316-342"]}
{"id": "C159", "title": "get_daily_vol gives one value for each bar that has a bar more than a day before it", "statement": "The daily volatility has exactly one value for every bar with a bar more than a day before it, also when bars share a time.", "quantifier": "all times that do not decrease, with any repetitions, all prices (missing and infinite ones included) and all spans", "why_tests_cant": "test data has one row per time; with dynamic bars several bars share a time stamp, and the lengths of the two selections by label then depend on all repetitions together", "anchors": ["mizarlabs/transformers/targets/labeling.py:438-463"]}
{"id": "C160", "title": "Sides and sizes are given for bars that share a time", "statement": "get_side_and_size gives each bar with all features the side and the size of its own row, also when several bars share a time.", "quantifier": "all data with any repetitions of times, all models and configurations, and whatever pandas does when it joins frames with repeated times", "why_tests_cant": "test data has one row per time; whether columns are put together by position or looked up by time depends on both indices, and shows only for data in which times repeat", "anchors": ["mizarlabs/model/pipeline.py:381-434", "mizarlabs/model/pipeline.py:436-487", "mizarlabs/model/pipeline.py:489-547", "mizarlabs/model/pipeline.py:549-597"]}
