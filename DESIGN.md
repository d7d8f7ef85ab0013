# Formal model of mizar-labs: design

## 1. Approach

The Python code in `/repo/mizarlabs` is modelled, function by function, as total computable Lean 4
functions (module `Verif.Model.*`), every definition carrying the file and lines it models.
Exceptions are values (`Except PyErr α`). Loops are folds or structural recursion. Calls to
external code that has no semantics here (fitted models, the random generator, `random.shuffle`,
the normal CDF, uninitialised memory) are parameters; every theorem quantifies over them.

Layout of `/verif/lean/Verif`:

* `Py/*`      — Python / NumPy / pandas primitives shared by the models (ideal floats with NaN
                and infinities, rolling windows, rounding, set operations on index arrays).
* `Model/*`   — the model of the code, one file per Python module.
* `Spec/*`    — the specifications used in the theorem statements, written without the model's helpers.
* `Lemmas/*`  — auxiliary lemmas.
* `Props/*`   — the property theorems (`Cnn_...`), each with a concrete instance beside it.
* `Check/ProjectTests` — the literal cases of the project's own unit tests, evaluated on the model. They validate the model
                against values the authors computed; no claim rests on them.
* `Check/Instances*` — property theorems applied to concrete data that meet all their hypotheses, for theorems without
                such a case in their own file.

If the code violates a property, the negation is proved on a concrete witness (`Cnn_..._refuted`)
and the strongest true part is proved with suffix `_partial`. The disagreements are listed in section 5.
A claim has the status `partial` in the manifest if some part of its statement does not hold or is not proved. Where the
statement itself names the condition or the exception, a `_refuted` theorem only shows that the condition is needed, and the
status is `proved`.

## 2. Numbers, time, data frames

* Floating point values are *ideal floats* `XF K`: `nan | ninf | pinf | fin x` over an ordered field
  `K` (ℚ for executable code, ℝ where log, sqrt, exp occur), with the IEEE rules for NaN, infinities
  and division by zero, but exact arithmetic: rounding, overflow of finite operations and signed
  zero are **not** modelled. Where the code relies on double rounding of integers (`int(a / b)`),
  round-to-nearest-even on 53 bits is modelled explicitly.
  `Py/Round.lean` and `Model/Rounded.lean` model selected computations with rounding to `p` bits (ties to even) after
  every operation, with unbounded exponents (no overflow, no subnormal numbers; `Py/Double.lean` is rounding with both, to a nearest number
  of the format by `Fmt.round_nearest`, used in C146, C147, C154 and C155); `roundBits_correct` (`Lemmas/Nearest.lean`)
  proves that this rounding gives a nearest `p`-bit number, with an even mantissa in case of a tie; C101 and the following claims say which
  of the exact results survive rounding, and link the rounded functions at `r = id` to the exact model.
  `Model/RoundedBoot.lean` does so for `seq_bootstrap` with two precisions; trusted there: `RandomState.choice` adds the
  probabilities with NumPy's compensated `kahan_sum` and refuses them if the result differs from 1 by more than `2^-26`;
  `np.sum` adds in some order (any binary tree of additions); exponents are unbounded (C150: for average uniqueness, bootstrap and time-decay
  weights this makes no difference).
* Timestamps are integers (nanoseconds since the epoch); `NaT` is `none`.
* A `Series` / `DataFrame` is a list of (index, value) pairs or parallel lists; column names are strings
  where the code's behaviour depends on them.

## 3. Trusted base

* Lean's kernel and the axioms `propext`, `Classical.choice`, `Quot.sound` (no others; checked by `vcheck`).
* The faithfulness of the hand-written model to the Python text (the code was read, not executed).
* The assumed behaviour of NumPy / pandas / SciPy / scikit-learn / numba primitives as described in the
  comments of `Py/*` and `Model/*`.
* Exact arithmetic in place of IEEE double arithmetic (see section 2).

## 4. Properties: what is modelled and how it is proved

| id | model | proof |
|----|-------|-------|
| C01 | constructor, factorials, int/int true division as 53-bit rounding | case analysis; `Nat.choose` identities; correctness of the rounding (nearest, ties to even, overflow threshold) for every size |
| C02 | `itertools.combinations` as recursion, reversal | induction; sublists of length k, count, no duplicates |
| C03 | `np.array_split` | arithmetic on `divMod`, induction over folds |
| C04 | `_compute_test_set`, `_compute_train_set`, purge, embargo on index lists | membership lemmas, induction over blocks |
| C05 | same | monotone prediction times |
| C06 | same | refuted by witness (embargo beyond the end of data is skipped); partial under explicit side condition |
| C07 | same | refuted by witness (later test folds shift the embargo); exact characterisation for one contiguous test block |
| C08 | same as C02 | double counting |
| C09 | product loop, factorial, rounding | `Nat.choose`; nearest double for every size |
| C10 | dictionary of blocks, shuffle oracle, pop | refuted (called with number of splits); partial for the parameter pairs that work; invariants over pops |
| C11 | sorted set union, slices | membership lemmas |
| C12 | assertions on max/min | refuted for all-ones matrices (single event); exact characterisation |
| C13 | column sums over ℚ | inequalities on sums |
| C14 | same | exchange of summation |
| C15 | loop state of `seq_bootstrap`, choice oracle | invariant: cached = recomputed |
| C16 | same | induction on batches |
| C17 | same | invariant |
| C18 | same | monotonicity of 1/(1+c) |
| C19 | job partition | list lemma: concatenation of chunks |
| C20 | seeds as stream, fit as state machine | stream splitting, induction over history |
| C21 | fit state machine | induction over history |
| C22 | bincount | counting |
| C23 | OOB accumulation | induction over estimators; `C23_outcome` gives the exact outcome for estimators with any classes (`given`, `FitsTable` in Spec/OobExact) |
| C24 | decision logic | case analysis |
| C25 | per-event loop over the bars | refinement to "first index satisfying" |
| C26 | barrier minimum | case analysis on the minimum |
| C27 | labels | arithmetic |
| C28 | labels | arithmetic |
| C29 | whole labelling function | congruence on windows |
| C30 | dropna/alignment | case analysis |
| C31 | column-name logic | refuted; partial for the default name |
| C32 | ms conversion + sentinel 0 | refuted at the epoch; partial for positive times |
| C33 | searchsorted, suffix alignment, ewm std | induction; causality |
| C34 | loop | invariant: sum = price minus running extremum |
| C35 | loop | simulation of two runs |
| C36 | loop | induction |
| C37 | size formula, CDF parameter with range [0,1] | case analysis on infinities |
| C38 | size formula over ℝ | monotonicity of z; refuted below chance level |
| C39 | half-even rounding | floor arithmetic |
| C40 | active mask | counting, refuted for pre-1970 ends |
| C41 | column-name logic | refuted; partial |
| C42 | masks, nansum | sums over filters |
| C43 | cumsum, slope/const | field arithmetic; refuted for c <= -1 |
| C44-C46 | loop with previous index, ffill | induction over alignment index |
| C47-C50 | pipeline decision logic, models as parameters | case analysis; C50 refuted (misspelled attribute) |
| C51-C53 | trader as state machine | case analysis; C52 refuted (in-place columns) |
| C54-C57 | crossover/state machines | induction |
| C58 | every feature as list function | prefix lemma per primitive |
| C59-C63, C76, C78, C79 | ideal floats over ℝ or an ordered field | inequalities, closed forms |
| C77 | indicator as parameter | decision logic per bar |
| C64, C65 | character-level parser; list renaming | induction on strings |
| C66-C69 | statistics loops; OLS with Mathlib matrices | sup lemmas, projection argument; C68 penalty refuted |
| C70-C73 | uninitialised memory as parameter; t_events state | witness for step > 1; independence for step = 1 |
| C74, C75 | real logarithm; integer floor division | monotonicity |
| C80 | interleaving semantics of parallel loops | invariant over all runs; loops as instances |
| C81 | constructors as data, scikit-learn protocol | lookup lemmas; refuted for some classes |
| C82, C83 | transformers as parameters; parameter routing on strings | induction on lists and names |
| C84 | models of C25-C30 and sample weights | invariance under scaling, lifted function by function |
| C85 | model of C01-C10 | invariance under order embeddings; fold invariant; refuted for embargoes beyond the data |
| C86 | frames of the paths, model under test as stateful parameter | naturality of the dictionary operations, on top of C10 |
| C87 | C05 model with optional evaluation times | fold invariant; exact train set; refuted for test samples |
| C88 | composition of the models of C11-C18, C25-C30, C42 and C01-C07 | conclusions of one meet the hypotheses of the next |
| C89 | `Bag.fit`, `subsampleCols`, `getIndMatrix` | equality of runs with the full and the restricted matrix; decision logic of a cold fit |
| C90 | `Bag.fitObj`, `construct`, `indMat`, `setInfo` (Model/BagObject) | refinement of an object without cache (Spec/BagObject), induction over the fits |
| C91 | `Pipe.predProbaFeatures`, `locAssign`, `predProbaFolds` (Model/OofProba) | induction over the folds; `Gives`, `FoldOf` in Spec/OofProba |
| C92 | `Pipe.checkYMetalabel` (Model/OofProba) | decision logic |
| C93 | `Model/Ols`, `Model/Sadf`, `Model/Sdfc` | the design is mapped by an invertible matrix that keeps the tested coefficient (`Lemmas/OlsChange`) |
| C94 | `Bag.fitAttrs`, `estimatorsSamples` (Model/BagSamples), `fit` | invariant over histories (`C94_record`); the inherited attribute refuted |
| C95 | `Bag.predictProba`, `predictClass` (Model/BagPredict), `fit` | sums over the chunks of `partitionEstimators`; refuted after a failed fit |
| C96 | signatures of `fit` as data, `TransformerMixin.fit_transform` (Model/FitProtocol), `Union.fitTransform` | case analysis, induction over the union; refuted for classes without `fit` |
| C97 | `getIndMatrix`, `averageUniqueness`, `timeDecay`, `Bag.fit` | commutation of each step with a strictly increasing map, sorted sets with the same members, permutations |
| C98 | `RandomState.choice` by inverse distribution function, generator as state machine (Model/BagRandom) | intervals of the distribution function, Lebesgue measure, simulation of the stateful loop by the draws of `Bag.Base` |
| C99 | `_validate_y`, labels seen by base estimators, `oob_score_` (Model/OobScore) | rank encoding, pigeonhole on the bag, fold over estimators |
| C100 | recursion `ewmcov` of pandas (Py/Ewm), `get_daily_vol`, `transform` of the labelling | invariant of the recursion (`ewmVar_state`) against the weighted sums of Spec/EwmVar; composition with C27 and C33 |
| C101 | returns, barriers and labels with rounding after every operation (Model/Rounded, `roundBits`) | spacing of p-bit numbers: quotients of distinct floats stay away from one; least elements |
| C102 | `calc_average_uniqueness` with rounding (Model/Rounded) | induction on the sequential sum: representable upper bounds k and k - 1/2; relative error product |
| C103 | time decay with rounding (Model/Rounded) | Sterbenz-type exactness of 1 - P, ties to even at 1 |
| C104 | `seq_bootstrap` with single and double rounding, NumPy's compensated sum and tolerance (Model/RoundedBoot) | loop invariant: cached uniqueness = recomputed one; error analysis of compensated summation and of arbitrary summation trees |
| C105 | `_get_features_for_metalabeling`, `predict`, `predict_proba`, `create_dataset_metalabeling` (Model/Pipeline) | membership characterisation of the joined rows, success implies completeness |
| C106 | error branches of unions, data sets (labels, values), models that are not fitted, bet sizing, labeling, docstring parser | case analysis; all failing steps of a loop raise the same exception |
| C107 | `CUSUMFilter.transform` with rounding of every subtraction and addition (Model/RoundedCusum) | decoupling of the two accumulators (needs monotone, odd rounding that fixes the threshold), two-sided invariants relating the accumulator to price differences, simulation for two thresholds |
| C108 | `BetSizingFromProbabilities` with rounding of every operation (Model/RoundedBet) | rounding fixes 0, 1/2, 1, 2 and the integers and is monotone; `1 - p` is exact from 1/2 on; loop invariant for the sequential mean; error analysis |
| C109 | `max_samples`, `max_features`, number of batches with one rounding (Model/RoundedCount) | rounding is monotone and fixes integers; gap between 1 and the next float; distance of a fraction to an integer is at least 1/denominator |
| C110 | `TripleBarrierMethodLabeling.transform` with two parameter sets | breaches of the wider barrier are breaches of the narrower one; first positions in nested windows |
| C111 | `seqBootstrap` on a sequence of real uniform numbers | the numbers that give a sequence form a box, so its volume is a product; variance identity |
| C112 | `predict_proba`, `predict` with rounding of every addition and of the division (Model/RoundedBag) | loop invariant for sums with integer upper bounds, error analysis over the chunks, exactness of integer sums |
| C113 | `CUSUMFilter.transform` | from the characterisation C34; potential (pos - neg) that grows by at most the absolute price change and drops by more than the threshold at a selected bar |
| C114 | `get_ind_matrix`, `calc_average_uniqueness`, `AverageUniqueness.transform` on two inputs | through the textbook uniqueness of C13; partial: the added events start and end at bars |
| C115 | `StrategySignalPipeline.predict`, `predict_proba`, `get_side_and_size` on two dictionaries | every step keeps the agreement of the data up to `t` and the order of the times (Lemmas/NoLookAhead, with C45 for the alignment); the hypotheses are proved for row-wise models, C58-causal strategies, feature unions and the bet sizer (Model/PipeSizer; the same as that of C153, Model/BetPipe, by C115_same_sizer) |
| C116 | `TripleBarrierMethodLabeling.transform` on two frames, with `get_daily_vol` and `CombPurgedKFoldCV.split` | first breaches agree up to the end bar; with C33 for the volatility, C88 and C05 for the training sets; partial: a frame that stops at the end bar |
| C117 | `TrendScannerLabeling.transform` on two series | equality of rows from equality of windows; partial: step one; the bars up to the reported end do not decide the label |
| C118 | `create_dataset_primary`, `create_dataset_metalabeling` on two sets of data; with `TripleBarrierMethodLabeling` and `CombPurgedKFoldCV.split` | agreement up to a time kept by `loc`, `concat`, `dropna`; with C45, C49, C115 for features and C116 for labels |
| C119 | `StrategyTrader.create_position` on two sets of data | agreement up to a time kept by the written columns and the outer join; with C33 (volatility) and C115 (side and size) |
| C120 | `avg_active_signals`, `BetSizingFromProbabilities.transform` with averaging, on two books of bets | reduction to the book as known at a time, by induction over the bets |
| C121 | `CUSUMFilter.transform` on the whole and on two pieces; with rounding | invariant: both sums together never exceed the threshold; witness for rounding |
| C122 | `AverageUniqueness.transform`, `SampleWeightsByReturns.transform`, `SampleWeightsByTimeDecay.transform` on two sets of events of which the same is known | refinement to the known part of an event; witnesses for time decay and for times below the millisecond |
| C123 | `avg_active_signals`, `BetSizingFromProbabilities.transform` on permuted rows and divided bets; with rounding; `SampleWeightsByReturns.transform` on permuted rows | sums do not depend on the order (all extended values); case analysis on the time of division; witnesses |
| C124 | `TripleBarrierMethodLabeling.transform` on opposite sides and on mirrored prices | relation between two runs, event by event |
| C125 | all feature transformers on a frame without its first rows | relation between two runs from a position on |
| C126 | `sadfRun` for two values of `min_length`, and on a series without its first values | inequality between two runs |
| C127 | `alignOn` applied to its own result; `alignFrame` through a finer index | laws relating two runs |
| C128 | two runs of `predictProba` / `predictClass` on lists of estimators with a common part | stability bounds |
| C129 | `_fit` on a generator with a position (Model/BagShared), for both kinds of `random_state` | refinement to `fit` on the rest of the stream, induction over the calls |
| C130 | `split` as a generator over the shared attribute `self.indices` (Model/SplitGen) | induction over the order of `next` calls, invariant on running generators |
| C131 | `rolling(w).sum()` as the compensated running sum of pandas, `VPIN` with rounding (Model/RoundedRoll) | loop invariants on sum and compensations, error analysis, refinement to exact windows |
| C132 | `rolling(w).mean()` as the compensated running sum of pandas, `MovingAverageCrossOver` with rounding (Model/RoundedRoll) | error analysis, rounding keeps different fractions with small denominators apart, order of averages determines the signals |
| C133 | `rolling(w).std()` as the Welford recursion of pandas with rounding, `RollingZScoreTransformer` (Model/RoundedVar) | invariant of the recursion (mean and squared deviations of the window), error analysis of the rounded state beside the exact one |
| C134 | `ewm(span).mean()` as the recursion of pandas with rounding, `ExponentialWeightedMovingAverageDifference` (Model/RoundedEwm) | contraction: weights and means of the rounded run stay in a fixed distance of the exact run; fixed points of the rounded recursion |
| C135 | `get_daily_vol` with rounding: returns, `ewm(span).std()` as the recursion `ewmcov` of pandas, column (Model/RoundedDailyVol) | rounded and exact state stay in a fixed distance (weights, mean, covariance); the exact variance is Lipschitz in the returns; sign invariant of the rounded recursion |
| C136 | `RollMeasure`, `RollImpact`, `KyleLambda` with rounding: differences, `rolling(w).cov` as three rolling means, columns (Model/RoundedMicro) | error of the three means (C132) carried through product, difference and bias factor; covariance is Lipschitz in the price changes; exact sums on a grid (C131); signs of means |
| C137 | `ParkinsonVolatility`, `CorwinSchultzSpread`, `BeckersParkinsonVolatility`, `AmihudLambda`, `HasbrouckLambda` with rounding and with parameters for logarithm, root and exponential, columns (Model/RoundedHighLow) | relative errors of quotient, logarithm and square per bar; errors of rolling sums and means (C131, C132) twice; root of a perturbed number; the spread is a Lipschitz function of alpha; signs and missing values by cases |
| C138 | `SampleWeightsByReturns.transform`, `_calculate_weights` with rounding; `np.sum` adds in any order (`AddTree`, Model/RoundedReturns) | closed form of the weights as sum of rounded quotients; error of a sum by induction on the order of the additions; error of one quotient |
| C139 | `RSIConfirmation.predict`, `BarArrivalRSIStrategy.predict` with rounding (Model/RoundedSignals) | drift of the rolling mean (C132); whole nanoseconds are a grid, so the means are single roundings of the exact ones; monotonicity of rounding; error of difference and quotient |
| C140 | `BuySellImbalance.transform`, `MeanReversionStrategy.predict`, `LocalMaxToCloseRatio.transform`, `MACDHistogramCrossOver.transform` with rounding (Model/RoundedVolume), normalised `ewmaDifferenceR` | odd rounding; drift of the exponentially weighted means (C134); error of differences and quotients; ratio of two floats is 1 or rounds away from 1 |
| C141 | `features`, `predict`, `predictProba`, `getSideAndSize`, `datasetPrimary`, `datasetMeta` (Model/Pipeline) | success of each step in turn; rows of an outer join are complete exactly where every frame is; induction over the alignment loop |
| C142 | `cswRunR` (Model/RoundedCsw), `cswRun` (Model/Csw) | relative errors as factors closed under product, quotient, root and sums of numbers that are not negative; invariant of the inner loop |
| C143 | `trendScanR`, `sdfcRunR`, `sadfRunR` (Model/RoundedOls) | the regression with every column in its own unit (a power of two, or the negative of one), carried through gram matrix, inverse, coefficients, residuals and variance; the quotient loses the unit |
| C144 | `logCdfR` (Model/RoundedLogUniform), `cdf` (Model/LogUniform) | the quotient of two different floats rounds to a number above one; error of logarithm and quotient |
| C145 | `alignOnR`, `alignFrameR`, `npMeanR` (Model/RoundedAlign), `alignOn` (Model/Align) | the two alignments run in lock step with related cells (`frame_both`); error of a sum and a quotient |
| C146 | `cusumD` (Model/DoubleCusum), `Fmt.float` (Py/Double), `cusum` (Model/RoundedCusum) | lock step of the two arithmetics: differences are equal, or infinite on one side and beyond the bound on the other; accumulators stay multiples of the smallest number, for which rounding has no underflow |
| C147 | `Rd.eventD` (Model/DoubleEvent), `Fmt.float` (Py/Double), `Rd.event` (Model/Rounded) | a return is 0 or at least 2^-p in size, so products with the side are exact and barriers that underflow compare alike; a quotient beyond the bound minus one is still beyond the bound; transfer of C101 |
| C148 | `Trend.transform` (Model/TrendScan), `ols` (Model/Ols) | normal equations of the line give slope times spread of times = weighted pairwise moves; signs of the terms |
| C149 | `Pipe.putCell`, `addPrediction`, `joinProba`, `datasetMeta`, `predict` | from C105 and the position of a name; refuted for an own feature named `primary_side_pred` |
| C150 | `Rd.averageUniqueness`, `updateAvgUnique`, `probOf`, `kahan`, `choiceValid`, `bootLoop`, `seqBootstrapTrace`, `timeDecay`, `Fmt.float` | every operand is bounded below and above by powers of two, sums are multiples of a common unit; the result is the same for every arithmetic that agrees with `roundBits` on this range |
| C151 | `Lab.transform`, `Trade.createPosition`, `createBars`, `volatility`, `level`, `getDailyVol`, `Rd.eventD`, `Rd.levelD` | the label's barriers are the position's levels, so first breach of a barrier and settlement by levels are the same bar; composition of C26, C28 and C53 |
| C152 | `Trend.transform`, `Boot.averageUniqueness`, `getIndMatrix`, `seqBootstrap`, `CV.split` | the chosen position is inside the array for any memory, so ends are bars after the start; composition with C12, C13, C16, C05 and C117 |
| C153 | `Pipe.ownSizer`, `getSideAndSize`, `Bet.transform`, `Trade.createSignal` | the frame handed to the bet sizer meets the hypotheses of C37/C38 row by row; composition with C48 and C51 |
| C154 | `betTransformD`, `betAvgD`, `betDiscD`, `classMeanD`, `predictClassD` (Model/DoubleBet: as C108 and C112 with bounded exponent) | every intermediate result is a multiple of the smallest positive number, at least the smallest normal number, or rounded to an integer next; only the last quotient of a mean can underflow, which costs less than a unit at 1 |
| C155 | `averageUniquenessD`, `timeDecayD`, `weightsByReturnsD` (Model/DoubleWeights: as C102, C103 and C138 with bounded exponent; `np.sum` adds in an order that depends on the length of the array) | every intermediate result is 0 or between powers of two that depend on the precision only, because a float other than 1 is at least `2^-p` away from 1, so the bounded format computes what the unbounded one does |
| C156 | `alignOuter`, `andSeries`, `barArrivalSeries`, `barArrivalProba` (Model/ArrivalJoin: `&` of series joined by time) | the joined series as blocks of equal times; counting rows of each time; refinement to `barArrivalRsi` for increasing times |
| C157 | `Lab.transform` (Model/Labeling: `getLabels` accepts increasing and decreasing indices) | empty windows for decreasing times, position of a time in the index; the increasing case from C88 |
| C158 | `byLabel`, `alignFrameAny`, `locAll`, `concatRows`, `alignXyAny` (Model/Repeated) | only the first of equal times is assigned; forward filling is idempotent; selection by label as lists of positions, counting |
| C159 | `dailyReturnsAny`, `getDailyVolAny` (Model/DailyVolAny), `Pipe.locAll`, `shiftedClose` | `searchsorted` on times that do not decrease; both selections by label as counts; a single reference price forces a single bar, so the broadcast branch is never reached |
| C160 | `assignSeries`, `metaFeaturesAny`, `predictAny`, `predictProbaAny`, `sideSizeAny`, `getSideAndSizeAny` (Model/RepeatedSide) | tables of bar positions; joins of different indices with repeated times are arbitrary functions (structure `Joins`), so every theorem holds for each version of pandas |

Signal pipeline and trader (`Model/Align`, `Model/Pipeline`, `Model/Trader`): data frames are `Frame`s (`Py/Frame`:
column names and rows of ideal floats keyed by time); fitted classifiers, transformers and (for the trader) the
pipeline's `get_side_and_size` are arbitrary functions that may raise. Not modelled there: log messages, the text of errors.

Rolling sums and means with rounding (`Model/RoundedRoll`): `roll_sum` and `roll_mean` of pandas 1.2 to 1.4, transcribed
from `pandas/_libs/window/aggregations.pyx` (not part of `/repo`, hence trusted): one sum for the series, the value that
leaves taken out and the new one put in, each with a Kahan compensation of its own, sign of a mean put right if all values
of the window have one sign. Later versions treat windows of equal values separately. Every operation is rounded to `p`
bits with unbounded exponent; infinite values count as missing; the sign of zero is not modelled. `Model/RoundedVar` does
the same for `roll_var` (Welford, two compensations); versions of pandas differ in whether the new value is put in before
the old one is taken out, so the model has a flag and all results hold for both. The root is a parameter there.
`Model/RoundedEwm` does the same for `ewma` (`adjust=True`, `ignore_na=False`), `Model/RoundedDailyVol` for `ewmcov` (also
`bias=False`) and the daily returns, `Model/RoundedMicro` for `rolling(w).cov` (1.2 to 1.4: three rolling means and the factor
`count / (count - 1)`).  In C137 `np.log` and `np.exp` are any functions with a relative error of at most 2/2^p (one unit in the
last place; `GoodLog`, `GoodExp`), `np.sqrt` and `** 0.5` any with 1/2^p (`GoodSqrt`), and `np.exp` is at least 1 for arguments that
are not negative; the computed `2 ** -0.5` and `(8 / np.pi) ** 0.5` are off by at most 2/2^p and 3/2^p. In C138 `np.sum` adds in an order that is left open: any binary tree of rounded additions over the same numbers
(`AddTree`, `Adds`); adding from left to right, as numpy does with fewer than eight numbers, is one of them (`C138_left_to_right`). Exponents are unbounded there: overflow and underflow are not modelled.

Features (`Model/Technical`, `Model/Features`): frames as above, results as columns. `rolling(w)` has
`min_periods = w` and counts infinities as missing, `ewm(span).mean()` is the recursion of pandas (`adjust=True`,
`ignore_na=False`); `rolling(w).std()` and `.cov()` use the two-sum formula in exact arithmetic. Indicators of talib
are arbitrary functions from the frame to a column or an error; causality of what is built on them assumes they are
causal and give one value per bar.

TA factory (`Model/TaFactory`): strings are lists of code points; a talib function is a parameter, made of its
docstring and its behaviour on columns; the regular expression `\((.+)\)` is modelled as the greedy match inside one
line. Not modelled: that talib has the functions its documentation lists.

Structural breaks (`Model/Csw`, `Model/Ols`, `Model/Sadf`, `Model/Sdfc`): real numbers with logarithm and square root on
ideal floats; numba's two error models are a parameter, `prange` loops run in order (C80 shows that order does not matter).
Matrices are lists of rows; `np.linalg.inv` is Mathlib's inverse, raises `LinAlgError` for a matrix with a missing or
infinite entry or an exactly singular one (numerical singularity is not modelled). Index labels are unique and sorted,
`min_length` and `min_num_samples` are natural numbers. Negative array sizes raise `ValueError`; `np.max` gives NaN if
there is one.

Trend scanning (`Model/TrendScan`): the regression of `Model/Ols` on a constant and the time passed. What `np.empty`
leaves in memory is a parameter of every call; `np.argmax` takes the first NaN if there is one, else the first greatest
value. Times are unique in the series and among the events; `look_forward_window` and `min_sample_length` are natural
numbers, `step` an integer. The attribute `t_events` is part of the state a call returns.

`log_uniform` (`Model/LogUniform`): `rv_continuous.cdf` is assumed to give 0 up to the lower bound, `_cdf` between the
bounds and 1 from the upper one on. Times (`Model/Labeling`) are 64-bit counts of nanoseconds.

Parallel loops (`Model/Parallel`, `Model/ParallelLoops`): iterations are lists of atomic writes, computed from arrays the
loop does not write, or an exception; any interleaving is possible, and after an exception any iteration may be
abandoned. Assumed of numba: no reordering inside an iteration that others can see, the inner `prange` of a nest runs in
order, an exception of any iteration is raised after the loop.

Estimators (`Model/Estimator`): constructors as tables of parameters and attributes; `get_params`, `clone` and
`set_params` as in scikit-learn 0.24. `MizarFeatureUnion` and `MizarPipeline` (`Model/Union`): `FeatureUnion` and
`Pipeline` of scikit-learn 0.24, transformers as functions. `estimators_samples_` (`Model/BagSamples`): the property of
scikit-learn 0.24's `BaseBagging`, its draws being a parameter. Random draws (`Model/BagRandom`): a generator is a state machine; `RandomState.choice` with
probabilities is the inverse distribution function on successive uniform numbers, as in NumPy; `randint` and
`sample_without_replacement` are parameters with range and distinctness assumed (`ValidGen`).
`predict_proba` and `predict` (`Model/BagPredict`): as in
scikit-learn 0.24.

The helpers of the pipeline nothing calls (`Model/OofProba`): `.loc` assignment by label with unique times and column names.

The bagging classifier as an object (`Model/BagObject`): cached matrix, mapping of event starts, fitted attributes and
out-of-bag result over a sequence of calls.

Further simplifications: `random_state` of the bagging classifier is an integer except in C129 (`Model/BagShared`), where a
shared `RandomState` object is advanced by every call. An unfitted scikit-learn ensemble as metalabeling model already raises in the truth test of
`if self.metalabeling_model`, because its length is the number of its estimators; the model raises when it is first asked to
predict. `pandas.testing.assert_series_equal` compares values, index and names, not the frequency of the index.
`left & right` of two pandas series with different indices (`Model/ArrivalJoin`) joins them by time, in ascending order, with all pairs of rows of a time,
and takes a missing value for false; series with equal indices are joined row by row.

Time zones are not modelled: indexes and times are naive (`.values` drops the zone, so e.g. the result of
`avg_active_signals` is naive for aware input). `t_events` of the trend scanner are `np.datetime64` values, as in
`index.values`; a list of `pd.Timestamp` has other hashes and does not pass `_check_input`. Entries of `talib.__dict__`
without docstring (no functions) are not names a user passes.

Nothing in the list is considered inexpressible. Not modelled at all: plotting/logging, joblib,
serialization, talib's numerical indicators (parameters), scikit-learn estimators (parameters).

## 5. Disagreements between code and property

Each line names the theorem that proves the disagreement on the model.

* C01 — the constructor accepts parameters for which the number of splits is not exact or overflows (`C01_*_refuted`).
* C06 — `test_indices[:test_fold_end]` slices positions of the test array by a position in the data, so the embargo after
  one test fold can be computed from other folds and training samples that overlap the test set stay
  (`C06_no_leakage_refuted`); an embargo longer than the remaining data is dropped (`C06_long_embargo_refuted`).
* C07 — for the same reason samples that interfere with no test sample are dropped (`C07_no_overdrop_refuted`).
* C10 — the number of paths is computed from the number of splits, so with 2 to g - 2 test folds the function raises
  `IndexError` (`C10_paths_refuted`).
* C12 — a single event, or events that are all the same, raise an `AssertionError` (`C12_single_event_refuted`).
* C16 — a negative batch size returns nothing (`C16_negative_batch_returns_nothing`).
* C23 — an estimator that saw one class is broadcast over all classes (`C23_single_class_refuted`); other class
  mismatches and estimators without out-of-bag rows raise (`C23_raises_refuted`).
* C24 — an infinite float raises `OverflowError` (`C24_infinite_max_samples_refuted`).
* C26, C27, C29, C88, C116 — times are cut to milliseconds before the bars are searched, so with several bars in one millisecond an event can
  end before it starts, have label 0 although only the profit-taking barrier was touched, depend on a bar before it, and depend on a bar
  after its reported end (`C26_sub_millisecond_refuted`, `C27_sub_millisecond_refuted`, `C29_sub_millisecond_refuted`,
  `C88_sub_millisecond_refuted`, `C116_sub_millisecond_refuted`); the exact outcome for all increasing times is `C26_any_times`,
  and `C29_any_times` and `C116_any_times` say on which prices a row can depend.
* C29, C30 — with `metalabeling` a frame in which no event ends raises `ValueError` at line 419 (assignment through an empty
  mask into an empty frame), so it is not returned unlabelled, and changing a price after the window of one event can make the
  whole call fail (`C30_metalabel_refuted`, `C29_metalabel_refuted`; `C30_no_event_ends` says exactly when).
* C31 — a `side_column_name` other than `side` raises for every frame (`C31_custom_side_column_refuted`).
* C32 — the value 0 stands for "no hit", so a hit at the epoch is lost (`C32_epoch_refuted`); times are cut
  to milliseconds before they are looked up, so other times raise `KeyError` (`C32_sub_millisecond_refuted`);
  a shift by whole milliseconds that avoids the epoch changes only the end times, whatever the times are (`C32_any_times`).
* C37 — with `num_classes = 1` a probability of 1 gives 0/0 and an `AssertionError` (`C37_one_class_refuted`).
* C38 — below `1 / num_classes` the size falls with the probability (`C38_below_chance_refuted`).
* C39 — a signal outside [-1, 1] is cut to ±1, which is not a multiple of the step (`C39_idempotent_refuted`).
* C40 — an end before 1970 counts as missing, and times are cut to milliseconds (`C40_*_refuted`); the exact result for all times is `C40_any_times`.
* C41 — with averaging, only the name `bet_size` works (`C41_custom_name_refuted`).
* C42 — bars in the same millisecond as the start or end are included (`C42_sub_millisecond_refuted`); the exact result for all times is `C42_any_times`.
* C43 — a minimum weight of -1 gives NaN everywhere, smaller ones give decreasing weights above 1
  (`C43_minus_one_refuted`, `C43_below_minus_one_refuted`).
* C44 — a row whose aggregation is missing is replaced by the previous aligned row (`C44_missing_value_refuted`);
  rows at or before 1700-01-01 are never aggregated (`C44_before_1700_refuted`).  The exact result for all rows and times is
  `C44_any_rows`.
* C49 — metalabel features that consist of the primary prediction alone raise (`C49_predictions_only_raises`).
* C50 — the method looks for an attribute that the constructor does not set (`C50_closing_model_refuted`).
* C52 — three columns are written into the frame that was handed over (`C52_inputs_unchanged_refuted`), so that a
  second call can raise (`C52_repeatable_refuted`). A call that raises for want of a profit-taking factor has
  already written the stop losses (`C52_failed_call_refuted`).
* C53 — the default factors `None` raise `TypeError` (`C53_default_factors_refuted`); while all bars lie within a day the daily volatility
  is an empty series, nothing is raised, and the position has neither stop loss nor profit taking (`C53_no_barriers_refuted`).
* C54, C58 — a crossing that falls into a gap of missing prices is not seen, so the filled side is wrong after the gap
  (`C54_gap_refuted`); times that occur twice get the side of the later bar (`C54_duplicate_times_refuted`,
  `C58_duplicate_times_refuted`).  The exact side for every
  price path and index is `C54_any_index`, `C54_filled`.
* C59 — `iloc[window:]` starts one bar late: without volume in the first window the value at position `window - 1` is
  missing (`C59_first_window_refuted`), and missing volumes are reported as 0, like balanced trading (`C59_missing_volume_refuted`; `C59_any_values`
  gives the exact value for all data).
* C65 — for a function of two arrays the names are replaced one after the other in the same list, so a first column
  that is itself called `real1` comes out exchanged (`C65_two_arrays_refuted`).
* C66 — with numba's default error model a series that starts with two equal values raises `ZeroDivisionError`
  (`C66_constant_start`); one missing value silences the test: from there on the statistic is minus infinity and the critical
  value is missing (`C66_missing`).
* C68 — the sub- and super-martingale tests divide by the position of the window's first row instead of the documented
  `(t - t0) ^ phi` (`C68_penalty_refuted`); a list of lags, which is documented, raises `TypeError` in the constructor
  (`C68_constructor`); without lags the Dickey-Fuller models raise for every series (`C68_no_lags`).
* C68 — changes next to a missing value are dropped before the lags are taken, so after a gap a change is explained by the last change before
  the gap instead of the change one bar before (`C68_gap_refuted`; `C68_design_gaps` is the exact regression).
* C69 — `min_num_samples = 0` raises for every series (`C69_no_margin`); a missing value after the first raises
  (`C69_missing_value`).
* C69 — the missing values in front are dropped before the positions are counted, so with `k` of them the statistic of a bar is the one of a break `k` bars later (`C69_leading_missing_refuted`, exact in `C69_leading_missing`); a gap raises `ValueError` (`C69_gap`).
* C70 — with a step other than 1 the positions between the steps are never written, so uninitialised memory takes part
  in the choice of the window and can be reported as t-value (`C70_refuted`).  `C71_any_step` says exactly which number is
  reported for any content of the memory; with zeros there it is the best of the windows tried (`C70_zero_memory`).
* C71 — the window of all `look_forward_window` bars is never tried (`C71_full_window_refuted`); with
  `min_sample_length = 2` every label is missing (`C71_two_points`), with less every call that labels anything raises
  `LinAlgError` (`C71_one_point`).
* C72 — without events the index of the first series is kept as events: a later series that lacks one of these times
  raises `AssertionError`, and times only in the later series get no label (`C72_refuted`, `C72_frozen`).
* C74 — the bounds of `log_uniform` are not checked; a lower bound of 0 raises `ZeroDivisionError` between the bounds if both bounds are plain Python numbers and gives NaN otherwise, in particular with the default upper bound (`C74_zero_bound`).
* C75 — a missing time cannot be told from the first 776 microseconds that can be represented
  (`C75_missing_least`).
* C81 — the triple barrier labels, sample weights, average uniqueness, CUSUM filter, MACD and moving average strategies and
  the bet sizer do not store all parameters under their own names: `get_params`, `clone`, `set_params` and `repr` raise
  `AttributeError` (`C81_refuted`); the trend scanner changes its parameter `t_events` (`C81_trend_scanner_refuted`).
* C82 — `fit_transform` does not pass the target on (`C82_target_refuted`).
* C83 — the weights of a last step whose name ends with an underscore are refused or go to another step
  (`C83_underscore_refuted`).
* C85 — an embargo that reaches beyond the last sample is not applied at all, so a longer embargo can add training samples
  (`C85_embargo_refuted`).
* C86 — the rows of a path are in the order in which folds first get tested, last folds first, not in the order of the
  samples (`C86_order_refuted`); the numbers of test folds that raise are those of C10.  Repeated index labels multiply the rows of
  a path and put targets of other samples beside a prediction (`C86_labels_refuted`), because the merge is on labels.
* C87 — a test sample without evaluation time is skipped by the embargo: the next samples are trained on
  (`C87_missing_test_refuted`).
* C90 — the constructor caches the indicator matrix and the positions of the event starts.
  `set_params(samples_info_sets=...)` renews neither: the next fit still uses the old matrix
  (`C90_new_events_ignored_refuted`), the one after it the new matrix with the old positions, so two identical fits in a row
  differ (`C90_repeated_fit_refuted`).
* C91 — when the models of the folds saw different numbers of classes, a later fold with more classes adds columns whose
  names are already in use, a later fold with fewer classes leaves values missing (`C91_classes_refuted`).  Exact effects:
  `C91_fewer_classes`, `C91_more_classes`.
* C94 — `estimators_samples_` is inherited from scikit-learn and draws again, uniformly, from `_seeds`: it does not depend on the
  overlaps at all (`C94_ignores_overlaps`), so it is not what the estimators were trained on (`C94_in_bag_rows_refuted`);
  after a warm start it lists only the estimators added last (`C94_warm_start_refuted`).
  The true record is `sequentially_bootstrapped_samples_` (`C94_record`).
* C95 — a cold fit that raises while the estimators are built leaves an object that counts as fitted with no estimators: all
  probabilities are zero and the first class is predicted (`C95_after_failed_fit_refuted`); a greater `n_estimators` set after
  the fit makes the probabilities add up to less than one (`C95_raised_parameter_refuted`, the division of scikit-learn 0.24).
* C96 — seven transformers have no `fit`, so `fit_transform` and unions containing them raise `AttributeError`
  (`C96_no_fit_refuted`, `C96_union_refuted`); `TrendScannerLabeling.fit` takes no target (`C96_trend_scanner_refuted`).
* C99 — `oob_score_` counts a row that every estimator has drawn as predicted to be of the first class (the argmax of a zero row), so it is not the accuracy of the out-of-bag predictions and changes when the classes are renamed (`C99_score_refuted`, `C99_unseen_row`).
* C109 — `max_samples=0.29` of 100 rows is 28 samples and `max_samples=0.7` of 10 rows is 7 although the double 0.7 is below 7/10: truncation of a rounded product is neither the floor of the decimal product nor that of the exact one (`C109_decimal_refuted`). The batch count is exact only below 2^53 samples (`C109_batches_refuted`).
* C112 — in floating point the predicted class depends on `n_jobs` of the prediction: four estimators with 0.1, 0.2, 0.9, 0.8 against 0.9, 0.8, 0.1, 0.2 predict the second class with one job and the first with two (`C112_jobs_refuted`); three estimators that agree on 0.1 do not give 0.1 (`C112_unanimous_refuted`).
* C114 — the start and the end of an added event become rows of the indicator matrix. If they are not bars, an event alive at them is averaged over more rows and can become more unique, although there are more overlaps (`C114_more_events_refuted`; `AverageUniqueness` uses no bars but the starts, so this happens there).
* C110 — a hit at the epoch is lost, so an event can end earlier with a wider barrier (`C110_epoch_refuted`); inside a millisecond an event can end earlier with a later expiration (`C110_sub_millisecond_refuted`); the parts that hold for all increasing times are `C110_any_times` and `C110_longer_any_times`.
* C116 — without an expiration bar the last bar of the data is excluded from the search for a breach, so an event that breaches its barrier at the last bar has no end and no label until a further bar arrives (`C116_last_bar_refuted`).
* C117 — the event end reported by `TrendScannerLabeling` is the end of the best window among all tried ones, so two series that agree up to it can have opposite labels; purging with these ends leaks (`C117_event_end_refuted`).
* C120 — times are cut to milliseconds, so a bet opened later within the same millisecond changes the average of an earlier time (`C120_sub_millisecond_refuted`); nothing looks further ahead than the end of the millisecond (`C120_any_times`).
* C121 — in floating point the sum that is not reset can keep a rest of the prices before the selected bar, and a filter continued from there selects other bars (`C121_rounded_refuted`).
* C122 — the weights by time decay of ended events change with every later event, since the latest event always has weight 1 (`C122_time_decay_refuted`); below the millisecond the weight by return contains returns of bars after the end (`C122_sub_millisecond_refuted`), but of no bar after the end of the millisecond (`C122_any_times`).
* C123 — in floating point the mean of the active bets depends on the order of the rows (`C123_rounded_refuted`); the weights by return depend on the order of the rows, since returns are taken from one row to the next without sorting (`C123_return_weights_refuted`).
* C125 — the filled crossover side and the differences of exponentially weighted means depend on the whole history, for every number of bars (`C125_filled_refuted`, `C125_ewm_refuted`); for the means the dependence decays geometrically (`C125_ewm_forgets`, `C125_difference_forgets`).
* C126 — with a penalty (`phi = 1`) adding values at the start lowers a later statistic, because the code divides by the position of the window and not by its length (`C126_penalty_refuted`, see C68). The trend regressors count from the start of the series: without a constant (`linear`, `quadratic`) and in `sm_power` (the logarithm of the count) the same bars get another regression when history is added, and the statistic can fall (`C126_no_constant_refuted`, `C126_quadratic_refuted`, `C126_power_refuted`).
* C127 — aligning in steps is not aligning at once for means, and not when a time of the fine index has no row of its own, because the value carried forward counts again (`C127_mean_refuted`, `C127_no_news_refuted`).
* C129 — with a `RandomState` object (or `None`) the same fit twice has no estimator in common, and a warm start passes over numbers that were already taken, so it does not equal a fit from scratch (`C129_repeat_refuted`, `C129_warm_start_refuted`).
* C130 — `self.indices` is set by the first `next` of every generator. A split over data of another length fails, but leaves its indices behind: a generator over the right data that is running at that moment raises `IndexError` at its next round (`C130_disturbed_refuted`).
* C131 — the running sum of `rolling(w).sum()` keeps rounding errors of values that have left the window. With decimal volumes `VPIN` can be above 1 (volumes 0.3, 0.4, 0.7, window 2: `C131_above_one_refuted`), negative (`C131_negative_refuted`), and infinite in a window without any trade, where the exact value is 0 (`C131_quiet_refuted`).
* C132 — crossings are comparisons of rounded averages. Prices jumping between 0.1 and 0.2 have equal averages over 2 and 4 bars, but a crossing is signalled (`C132_equal_averages_refuted`); with pandas before 1.5 even a constant price 0.1 gives signals in both directions (`C132_flat_refuted`). `_get_beta` takes the mean of rolling sums, whose sign is not put right: after a quiet stretch it can be negative, and its square root (hence the Corwin-Schultz spread) missing where the exact value is 0 (`C132_beta_refuted`).
* C133 — the variance of a window depends on the rows before it. After 2^60 the variance of 2, 3, 4 is 2^66 (`C133_outlier_refuted`); after zeros a column that stands still at 0.1 has positive variance (`C133_still_refuted`); after a gap of a day in a column of durations in nanoseconds the two orders of pandas give 0 and 2^39 where 1/3 is right (`C133_order_refuted`). The z-scores of a constant 0.1 are infinite with changing sign instead of missing (`C133_infinite_refuted`).
* C134 — means with rounding are not between the numbers averaged: with span 2 the mean of 3/4 + 2^-52 and 3/4 is 3/4 - 2^-53 (`C134_outside_refuted`). They can stop before they reach the price: after a fall from 1 to 0.3 the mean with span 4 stays above the one with span 5 for ever, so that the difference keeps the wrong sign (`C134_stuck_refuted`).
* C135 — missing returns do more than change weights: after a gap of 35 missing returns with span 2 the weight of the older return is lost in the rounded sum of the weights and the variance of two different returns is missing, while the exact one is 1/2 (`C135_gap_refuted`).
* C136 — without the bound on the ticks a steady trend has a spread: prices in equal steps of 45924870478633 with a window of 3 have the covariance 412316860416 and a measure above 1280000 instead of 0 (`C136_trend_refuted`).
* C136 — the measure remembers more than its window: two wrong prices outside the window change a covariance by more than a tenth (`C136_memory_refuted`).
* C137 — after moving bars a flat market can have a missing spread: highs 67, 72, 64, 64, 64, 64 and lows 64 with window 2 leave a beta of -1/2^59, whose root is missing; exactly the spread is 0 (`C137_missing_refuted`).
* C137 — after moving bars a flat market can have a positive spread: highs 76, 77, 64, 64, 64, 64 and lows 64 leave a beta of 1/2^57 (`C137_zero_refuted`).
* C138 — when the price comes back to where it was while the number of live events stays 2, the exact weight is 0, in double precision it can be positive: prices 1, 65/64, 71/64, 1 leave 1/2^57 (`C138_returned_refuted`).
* C139 — an RSI that does not move gives a buy signal in double precision: at 24.3 on every bar, with an average of four bars, the computed average rises at the sixth bar and `RSIConfirmation` returns 1 there (`C139_still_refuted`).
* C140 — at a threshold the computed mean reversion signal can differ from the exact one: close 103, average 100 and threshold 0.03 (its double is below 3/100) is a sale exactly, none in double precision (`C140_threshold_refuted`).
* C143 — in exact arithmetic adding a constant to the prices changes no label of the trend scanner (C73); in double precision the label of a price that does not move depends on its level: at 7 `ZeroDivisionError`, at 100 label 0, at 99.99 label -1 (`C143_level_refuted`; products added from left to right, LAPACK's inverse).
* C144 — in exact arithmetic the probability is one only from the upper bound on (C74); in double precision a number below it can have probability one: bounds 1.5 and the double after 1.75, argument 1.75 (`C144_one_refuted`).
* C145 — the mean of a feature that is constant between two alignment times is that constant in exact arithmetic; in double precision the mean of three rows 0.1 is above 0.1 (`C145_flat_refuted`).
* C147 — a barrier that overflows to infinity is not passed by a return that overflows too, so the event runs to its expiration (`C147_barrier_refuted`; in general `C147_overflow`: such a barrier is no barrier).
* C148 — the label of the trend scanner and the return of the same row can disagree: prices 10, 11, 20, 20, 20, 9 have label 1 and return -0.1 (`C148_return_refuted`).
* C148 — prices on a straight line (the clearest trend) raise `ZeroDivisionError` under numba's default error model (`C148_fails`, exact arithmetic).
* C149 — an own feature of the metalabeling model named `primary_side_pred` is silently replaced by the side that the primary model predicts
  (`C149_own_side_refuted`); one named `primary_side_pred_proba_i` gives a frame with two columns of this name (`C149_names`).
* C151 — a factor of zero means no barrier to the labels (`labeling.py` 240-252) but a level of zero to a position (`pipeline.py` 815-816): the live position would end at the first adverse (favourable) bar, its label does not (`C151_zero_factor_refuted`; for positive factors `C151_outcome_partial`).
* C152 — purging by the reported `event_end_time` leaks: the window is chosen after looking at all `look_forward_window - 1` bars (`trend_scanning.py` 238-268), so the label of an event that stays in the training set, as it is reported to end before the test event starts, can change with the test event's prices (`C152_purged_refuted`; with the last deciding bar as evaluation time `C152_purged_partial`).
* C153 — a bet sizer with `average_active` never works in a pipeline, which hands over no event end times (`pipeline.py` 566-588, noted there as a TODO; `C153_average_refuted`).
* C153 — with a `meta_labeling` bet sizer one row of the metalabeling model without a primary prediction (a missing primary feature) makes the whole `get_side_and_size` raise `AssertionError`, while without a bet sizer the row is left out (`C153_unscored_refuted`).
* C154 — `discretise_signal` accepts every step in (0,1), but for a step below about `2^-1024` times the signal the quotient overflows and any signal becomes the full bet 1 (`bet_sizing.py` 242-246; `C154_step_refuted`); a mean of tiny probabilities can be 0 (`C154_tiny_refuted`).
* C155 — minimum weight -1, which is accepted, makes all time-decay weights NaN in float64 too (`sample_weights/__init__.py` 134-138; `C155_minus_one_refuted`).
* C156 — the conditions on the indicator have a value for each bar, those on arrival times one for each bar but the first, so `&` joins them by time (`rsi.py` 68-73). The result is in order of time, not of the bars, and bars that share a time give the cube of their number of rows: 2 such bars give 8 predictions (`C156_refuted`). Exact rows: `C156_rows`; as many rows as bars exactly if the times after the first bar are distinct: `C156_length`. In the pipeline the side is looked up by time and the probability by position (`pipeline.py` 405-418, 469-471, 514-518), so that for bars out of order they can contradict each other (`C156_side_and_probability_refuted`).
* C157 — nothing sorts the rows: `shift` goes by position, and `reindex(method="bfill")` refuses only an index that is neither increasing nor decreasing (`labeling.py` 160-162, 387-391). A frame given newest first is labelled without complaint: no barrier is ever found, every event ends before it starts, and rising prices are labelled as falling (`C157_newest_first`, `C157_newest_first_refuted`).
* C158 — `df.loc[y.index]` and `y.loc[X.index]` select all rows of every label (`pipeline.py` 335-337): a time with two targets appears more often in the target than in the features, and `check_X_y` raises `ValueError` (`C158_shared_time_refused`, `C158_refuted`). Exact training set when it is made: `C158_training_set`; alignment is not affected: `C158_alignment`.
* C159 — `close.loc[shifted_close.index] / close.loc[shifted_close].values` (`labeling.py` 461) selects all rows of every label: bars that share a time get several values each, or the lengths differ and `ValueError` is raised (`C159_shared`, `C159_refuted`, `C159_raises_refuted`). Exact outcome: `C159_exact`.
* C160 — `X_metalabel_aligned["primary_side_pred"] = pd.Series(...)` (`pipeline.py` 404-408) looks the sides up by time as soon as the two models have complete features at different bars (a longer warm-up is enough), and a shared time then raises `ValueError`: no labels, sides or sizes for any bar (`C160_different_rows`, `C160_refuted`). The sides put before the bet sizer (`pipeline.py` 584-588) do the same when the sides are no features: labels and probabilities are there, sizes are not (`C160_sizer_different_rows`). With equal rows every bar gets its own values: `C160_primary`, `C160_metalabeling_partial`, and with a bet sizer that keeps its rows `C160_primary_sizer`, `C160_metalabeling_sizer_partial`.
