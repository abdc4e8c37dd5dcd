# Formal model of pybroker in Lean 4 — design

The source under study is `/repo/src/pybroker` at the pinned commit.  The model
and its proofs live in `/verif/lean/Verif`.  `properties.jsonl` lists the
properties, `MANIFEST.json` maps each to theorem names, `seeded/LOG.jsonl`
records the wrong-program experiments.

## Layout

| Area | Model | Specification / theorems |
| --- | --- | --- |
| Portfolio (orders, positions, stops, interest) | `Verif/Portfolio/{Model,Stops}.lean` | `Verif/Spec/*.lean`, `Verif/Props/{Ledger,Books,Logs,Orders,Leverage,Stops,Bars,Capture}.lean`; helper lemmas in `Verif/Portfolio/*.lean` |
| Slippage | `Verif/Slippage.lean` | `Verif/Props/Slippage.lean` |
| Pending orders, scheduling, bar loop, window boundaries | `Verif/Backtest/{Pending,Model}.lean` | `Verif/Spec/{Pending,Backtest}.lean`, `Verif/Props/{Pending,Backtest,Liquidate}.lean`; helper lemmas in `Verif/Backtest/*.lean` |
| Rotation and ranking | `Verif/Rotation.lean` | `Verif/Props/Rotation.lean` |
| Walk-forward split | `Verif/Walkforward.lean` | `Verif/Props/Walkforward.lean` |
| Scopes and alignment | `Verif/Scope/*.lean` | `Verif/Props/{Scope,Prices}.lean` |
| Interval compression, timeframe strings | `Verif/Interval/{Model,Build}.lean`, `Verif/Text/Model.lean` | `Verif/Props/{Interval,IntervalData,Text}.lean` |
| Vectorised indicators | `Verif/Vect/*.lean` | `Verif/Props/{Rolling,Causal,Bounds,NormalCdf}.lean` |
| Evaluation metrics | `Verif/Eval/Model.lean` | `Verif/Props/{Eval,EvalTrades,Bootstrap,Scores}.lean` |
| Cache and data source | `Verif/Cache/{Layered,Query}.lean` | `Verif/Props/{Layered,Query}.lean` |
| Execution context, result of a bar | `Verif/Context/Model.lean` | `Verif/Props/{Context,Result}.lean` |
| What functions read through their context | `Verif/Context/Reads.lean` | `Verif/Props/Reads.lean` |
| Indicators of an optimisation | `Verif/Optimize/TrialInds.lean` | `Verif/Props/TrialInds.lean` |
| JSON of results | `Verif/Common/ResultJson.lean` | `Verif/Props/ResultJson.lean` |
| The candidates of a search | `Verif/Optimize/Sampling.lean` | `Verif/Props/Sampling.lean` |
| `compress_bars` | `Verif/Interval/Public.lean` | `Verif/Props/CompressBars.lean`, `CompressSteps.lean` |
| Bootstrap of a result | `Verif/Eval/BootRun.lean` | `Verif/Props/BootRun.lean` |
| Account a context shows | `Verif/Context/Account.lean` | `Verif/Props/Account.lean` |
| Built-in indicators | `Verif/Indicator/Builtin.lean` | `Verif/Props/Builtin.lean`, `Verif/Props/BuiltinMore.lean` |
| Data providers | `Verif/Data/Providers.lean` | `Verif/Props/Providers.lean` |
| Another unit of money | `Verif/Portfolio/Units.lean`, `Verif/Portfolio/UnitsStops.lean`, `Verif/Backtest/Units.lean`, `Verif/Backtest/UnitsRun.lean` (helpers) | `Verif/Props/Units.lean` |
| All metrics | `Verif/Eval/Full.lean` | `Verif/Props/MetricUnits.lean`, `Verif/Props/Annual.lean` |
| Enabling and clearing caches | `Verif/Cache/Manage.lean` | `Verif/Props/Manage.lean` |
| Parallel work | `Verif/Parallel/Model.lean` | `Verif/Props/Parallel.lean` |
| Renamed dates | `Verif/Portfolio/Redate.lean`, `Verif/Backtest/Redate.lean`, `Verif/Backtest/RedateRun.lean` | `Verif/Props/Redate.lean` |
| Registering models | `Verif/Models/Register.lean` | `Verif/Props/Register.lean` |
| Runs with models | `Verif/Backtest/Learn.lean` | `Verif/Props/Learn.lean` |
| State of user code | `Verif/Backtest/Session.lean` | `Verif/Props/Session.lean` |
| Renamed symbols | `Verif/Portfolio/Rename.lean`, `Verif/Backtest/Rename.lean`, `Verif/Backtest/RenameRun.lean` | `Verif/Props/Rename.lean` |
| Symbols nobody trades | `Verif/Backtest/Idle.lean` | `Verif/Props/Idle.lean` |
| Least squares | `Verif/Vect/Legendre.lean` | `Verif/Props/LeastSquares.lean` |
| Indicators as statistics | `Verif/Vect/Indicators.lean` | `Verif/Props/IndicatorStats.lean` |
| Averaged indicators | `Verif/Vect/Indicators.lean` | `Verif/Props/IndicatorForms.lean` |
| Runs on a given portfolio, runs that only train | `Verif/Backtest/Given.lean` | `Verif/Props/Given.lean` |
| Indicators with state | `Verif/Vect/Indicators.lean` | `Verif/Props/IndicatorTraces.lean` |
| Pretrained models in an optimization | `Verif/Optimize/Pretrained.lean` | `Verif/Props/Pretrained.lean` |
| Symbols that share a pooled model | `Verif/Backtest/Learn.lean` | `Verif/Props/SharedModel.lean` |
| Stock splits | `Verif/Portfolio/Split.lean` | `Verif/Props/Split.lean` |
| Direct training | `Verif/Lags/Direct.lean` | `Verif/Props/Direct.lean` |
| Quantiles and nested intervals | `Verif/Eval/Quantile.lean` | `Verif/Props/Quantile.lean` |
| Ulcer Index | `Verif/Eval/Ulcer.lean` | `Verif/Props/Ulcer.lean` |
| Cancelling stops | `Verif/Portfolio/Stops.lean` | `Verif/Props/Cancel.lean` |
| Indicators in another unit | `Verif/Vect/Indicators.lean`, `Verif/Vect/Rolling.lean` | `Verif/Props/UnitFree.lean`, `Verif/Props/UnitBounds.lean` |
| Progress bars | `Verif/Log/Bar.lean` | `Verif/Props/Progress.lean` |
| More capital | `Verif/Portfolio/{Model,Stops,Split,UnitsStops,FeeMode}.lean` | `Verif/Props/Capital.lean` |
| Declared hyperparameters and parameters | `Verif/Optimize/Declared.lean` | `Verif/Props/Declared.lean` |
| Compressed bars restricted to dates | `Verif/Interval/Slice.lean` | `Verif/Props/BarSlice.lean` |
| Bar data and its data frame | `Verif/Common/BarData.lean` | `Verif/Props/BarData.lean` |
| Order of sets | `Verif/Backtest/Drive.lean`, `Verif/Common/Executions.lean` | `Verif/Props/HashOrder.lean` |
| Lag features, training data of a window | `Verif/Lags/{Model,Train,Pooled}.lean` | `Verif/Props/{Lags,Train,Pooled}.lean` |
| The input of a model during a backtest | `Verif/Scope/Input.lean` | `Verif/Props/Input.lean`, `Verif/Props/InputChoice.lean` |
| Indicators and models on an interval | `Verif/Scope/Interval.lean` | `Verif/Props/IntervalScope.lean` |
| Training data on an interval | `Verif/Lags/IntervalTrain.lean` | `Verif/Props/IntervalTrain.lean` |
| Pooled training data on an interval | `Verif/Lags/IntervalPooled.lean` | `Verif/Props/IntervalPooled.lean` |
| The bars of a run | `Verif/Data/Prepare.lean` | `Verif/Props/Prepare.lean` |
| A whole run over its windows | `Verif/Backtest/Drive.lean` | `Verif/Props/Drive.lean`, `Verif/Props/Lookahead.lean` |
| Optimizing a strategy | `Verif/Optimize/Tune.lean` | `Verif/Props/Tune.lean` |
| Computing indicators, indicator cache and memo, indicator sets | `Verif/Indicator/Model.lean` | `Verif/Props/Indicator.lean` |
| Training models through the model cache | `Verif/Models/Cache.lean` | `Verif/Props/Models.lean` |
| Hyperparameters and trials | `Verif/Optimize/Model.lean` | `Verif/Props/Optimize.lean` |
| JSON conversion, executions | `Verif/Common/{Json,Executions}.lean` | `Verif/Props/{Json,Executions}.lean` |

Every property theorem sits in a `Verif/Props` file next to an `example` that
shows a concrete non-trivial case meeting its hypotheses (or the concrete
computation).  Helper lemmas sit elsewhere.

## Modelling conventions

* A Python method that mutates `self` is a total Lean function from state to
  state (and result).  A `raise` is a value of `Except`; the portfolio state at
  the moment of the raise is not kept unless stated.
* `Decimal` and `float` are exact rationals `ℚ`.  The model has no rounding: a
  statement such as "PnL is the sum of the trades' PnL" is proved for exact
  arithmetic.  Decimal's 28-digit context and binary floats can differ in the
  last digits.  The explicit roundings of the code (whole shares, 1e-9 shares,
  cents) are modelled.
* NaN is `Option.none` where the code handles it; infinities are not modelled
  unless stated.
* Python dicts are association lists in insertion order; sets that the code
  sorts before use are lists; sets used for membership are lists or predicates.
* Callables supplied by the user (fees, slippage, selection functions) are
  arbitrary Lean functions, universally quantified.
* Object identity (a `_StopData` pointing at an `Entry`) is modelled by ids.
* Logging, plotting, pickling, threads, joblib, optuna, network access are not
  modelled.

## Trusted base

* Lean 4.33.0's kernel, and Mathlib for rational arithmetic and list lemmas.
* Axioms: only `propext`, `Classical.choice`, `Quot.sound` (checked with
  `#print axioms` for every theorem named in MANIFEST.json).  No axioms of our own, no
  `sorry`, no `native_decide`, no `bv_decide`.
* The correspondence between the Python text and the Lean definitions, which
  is by reading.  Each definition cites file and lines.
* NumPy, pandas, diskcache, optuna, joblib and the Python runtime behave as
  documented.

## Plan per property

* **C01 Cash ledger is conserved** — Model Portfolio state and every public call; prove a one-step ledger equation for each call, then induction over the list of calls with the interest of each capture accumulated by a separate spec function.
* **C02 Recorded market value is initial cash plus all profit and loss** — capture_bar modelled per position; market value spec is a plain sum over entries; uses C01 and the aggregate invariant.
* **C03 Holdings equal the net of the filled orders** — Invariant by induction: signed sum over the order log equals holdings.
* **C04 Position aggregates agree with their entries** — Invariant `WF` by induction over calls.
* **C05 A symbol is never long and short at once** — Part of the reachable-state invariant.
* **C06 Exits are matched first-in first-out** — The exit loop is a recursion over entries; spec gives each entry's share by a closed formula on prefix sums.
* **C07 Realised PnL, aggregate PnL and win rate follow from the trade log** — Invariant over calls relating pnl, wins and trade list.
* **C08 Order and trade logs are append-only with consecutive ids** — Invariant plus a prefix relation between logs before and after each call.
* **C09 Limit prices are honoured** — Invariant on the order log.
* **C10 Position caps are never exceeded** — Invariant by induction.
* **C11 Position mode is enforced** — Invariant by induction.
* **C12 An order that does not fill changes nothing** — Case analysis of buy/sell returning none; state equality up to the memoised market values (which are proved coherent).
* **C13 Fills never exceed the request** — Case analysis of clamp and loops.
* **C14 Leverage cap holds after every opening fill** — Exact algebra of live market value and committed exposure before/after; fee monotonicity hypothesis.  The flip case (cover plus open) is examined separately because fees are reserved for the opened part only.
* **C15 Margin loan is never negative** — Invariant: accrued interest and notionals non-negative.
* **C16 Interest moves net cash by exactly the per-bar rate** — Algebra of the sweep and accrual.
* **C17 exit_position flattens the symbol** — From the exit loop with shares = sum of entries.
* **C18 Price stops trigger exactly on touch and fill inside the bar** — Decision logic of the trigger function, iff statement.
* **C19 Trailing stops only tighten** — Fold over bars; closed form by induction.
* **C20 Stops exit an entry at most once and in full** — Model of check_stops' loops with the triggered-id set; counting argument.
* **C21 The set of armed stops is exactly the stops of open entries** — Invariant relating id index, per-symbol index and entries' stops.
* **C22 MAE and MFE are the running extremes** — Fold over bars; closed form by induction.
* **C23 Bar counting and bar stops** — Invariant over incr_bars histories; trigger iff.
* **C24 Fills are valued at cost until the next mark** — Algebra for opening; refinement of unmarked shares to the newest-shares suffix for FIFO fills.  Out-of-order stop exits are examined separately.
* **C25 Fixed slippage is adverse, proportional and positive** — Algebra.
* **C26 Volatility and volume slippage are adverse, floored and capped** — Algebra with min/max.
* **C27 Pending order registry behaves as one map** — Refinement of the two indexes to one abstract map by induction over calls.
* **C28 Orders execute after the configured delay, never on the signal bar** — Model of date lookup over strictly increasing lists.
* **C29 Pending orders are attempted at most once per bar and expire on time** — Model of the per-bar processing of one order over an arbitrary list of bars; counting.
* **C30 Pending orders are processed covers first, then sells, then buys** — Sorting lemma on the priority key.
* **C31 Exit orders never open the opposite side** — Clamp against the held shares, composed with the portfolio model.
* **C32 Ranking by score is total, stable and dense** — Insertion sort on (-score, symbol); permutation invariance.
* **C33 Rotation never over-fills its slots** — List filtering, sorting and take.
* **C34 Rotation never goes long and short on one symbol** — Set algebra on lists.
* **C35 Buy and sell scores order execution** — Stable sort lemma.
* **C36 Train data always precedes test data by the lookahead** — Exact rational/integer arithmetic of the index formulas.
* **C37 Test windows are consecutive, disjoint and end at the last date** — Same.
* **C38 The window split is in range and terminates** — Invariant of the while loop and a decreasing measure.
* **C39 train_size 0 and 1 partition the dates** — Same.
* **C40 Strategies never see the future** — Prefix lemmas: every fetch is a function of the prefix.
* **C41 Single value reads equal the last of the array read** — List lemma.
* **C42 Per-bar predictions are an append-only prefix view** — Refinement of buffer+length to a list.
* **C43 Date alignment is an exact join** — Two-pointer merge loop invariant.
* **C44 Fill prices are derived from the bar** — Rational inequalities; floor-based rounding.
* **C45 Compressed bars partition the base bars** — Recursion over bins; two dates share a bin iff they lie in one span of time (`Verif/Props/Bins.lean`).
* **C46 Compressed OHLCV is the aggregate of its base bars** — Fold lemma.
* **C47 A compressed bar is visible only once complete** — Index arithmetic and monotonicity.
* **C48 Interval names round-trip and normalise** — String lemmas on the last separator.
* **C49 Rolling low and high are the window extremes** — Deque invariant (indices increasing, values monotone, head is window extreme).
* **C50 Rolling sum is the window sum** — Loop invariant with NaN counts.
* **C51 cross and returnv meet their definitions** — Pointwise.
* **C52 Bounded indicators stay in range** — Inductive bounds on filters.
* **C53 Indicators are causal** — Prefix lemmas.
* **C77 Documented indicator ranges** — Every output is `100 * cdf - 50` or 0; `normal_cdf` bounded over the reals.
* **C78 ATR is the mean of the last true ranges** — Pointwise.
* **C79 Money flow range** — Weighted average bounds.
* **C54 Maximum drawdown is the worst peak-to-trough loss** — Fold invariant against a sup/inf specification.
* **C55 Trade statistics agree with the trade list** — Fold invariants against filter/sum/maximum specifications.
* **C56 Metric identities** — Algebra, telescoping.
* **C57 Bootstrap bounds are in range and ordered** — Index arithmetic for all rationals; sortedness.
* **C58 Jackknife shortcut equals leave-one-out** — List algebra.
* **C80 Reported drawdown is that of the market values** — Telescoping sums and products on top of C54.
* **C81 Scores stay in their ranges** — `log x <= x - 1` for the entropy; sortedness; least squares; fold invariants.
* **C82 Infinite scores only for flawless curves** — Case analysis and C54.
* **C59 The in-memory cache layer never changes what is read** — Refinement: simulation relation between (L1, disk) and disk alone.
* **C60 Cached queries return what an uncached query returns** — Model of query over an abstract deterministic fetch; induction over histories.
* **C61 Cache keys separate what must not be shared** — Injectivity of key construction; counterexample for settings that are not part of the key.
* **C62 Timeframe strings parse to the right number of seconds** — Character-list parser.
* **C63 JSON conversion is total and always yields JSON values** — Structural induction on a value
  tree (mutual over values, lists and items).  `json.dumps` of a key, the order of a sorted set and
  the conversion of a number to float are an arbitrary library (`PyLib`) with the few facts used.
* **C64 Execution symbols never overlap** — The resolve loop succeeds iff every selector answers and
  the answers are disjoint; induction over the calls that set a strategy up.
* **C65 Target sizing never exceeds the target** — Floor arithmetic; cases on the held position;
  the hypothesis on positions holds in every reached portfolio (C04).
* **C66 An execution result has one side and valid parameters** — `to_result` is characterised by a
  predicate for its errors and a structure for its result.
* **C67 Hyperparameter lattices are exact** — Induction on lattice generation over any ordered ring
  (integers and decimals); the grid is the product of the candidate lists.
* **C68 Lag features look only backwards** — Invariant of the cache over any history of requests;
  index lemmas for the matrix, alone and pooled.
* **C69 Warm-up trimming removes exactly each symbol's leading undefined rows** — The mask of the code is shown to hold a row
  exactly when a fully defined row of its symbol comes no later; the count then follows from the
  index lemmas of C68.
* **C70 Dropped symbols are liquidated at the window boundary** — Part of the bar loop model
  (`startWindow`), so C72 covers it; fold over symbols composed with exit_position (C13) and the
  registry refinement (C27).
* **C71 Active symbols per date are exact** — List lemmas.
* **C72 A backtest is a history of portfolio calls** — Simulation: every step of the bar loop extends a history of public calls.
* **C73 Fields of a recorded bar** — Sums over positions of the capture fold, combined with C02 and C15.
* **C74 Rotation allocation** — The entries of each side fit its limit (C33), so n/(limits) ≤ 1.
* **C75 Current prices** — `PriceScope` with its three memo tables is a state; an invariant says
  every entry equals the direct answer at the current end indexes; the bar loop clears the tables
  before it moves the indexes.
* **C76 Compressed VWAP stays within its base bars' VWAPs** — Weighted means by induction over the group.

* **C83 A bar's orders run in a fixed sequence** — Decomposition of the bar into folds over lists
  that are permutations of the schedules in score order.
* **C84 A run uses the declared hyperparameters** — Fold over the overrides.
* **C85 Parallel trials match sequential trials** — Induction over the runs of a study and over
  the batches of a run; a sampler is its fixed sequence of points.
* **C86 Order settings do not carry over between bars** — Clearing is constant in the old settings;
  composed with C66.
* **C87 Rotation replaces an execution's orders** — Composition of the reset, the target (C65), the
  clearing of unused signals and `to_result` (C66).
* **C88 A model is trained on the bars of its training window** — Composition of the split (C36, C37),
  the slicing of the store (C41), the alignment of indicators (C43) and the lag features (C68, C69).
* **C89 A run's indicators are computed from its own bars and arguments** — Refinement: the
  answer of `compute_indicators` from every state reachable through runs, optimisations and
  dropped cache entries is the relation `Spec.IndicatorSeries`.
* **C90 Trials and cached runs do not leak into each other** — Invariant over the histories of
  `Spec.IndReach`: every cached and every kept series is the series of its key.
* **C91 An indicator set returns its input's rows with their indicators** — The blocks of the
  symbols partition the rows; each block is the series of C89.
* **C92 Each window's models are trained on that window** — Refinement: the answer of
  `train_models` to a window's request, from every cache reachable through earlier training
  calls, is the result of each pair's own task (`Spec.windowTask`); invariant of the cache.
* **C93 A pooled model is trained on its symbols' bars of the window** — Refinement of the
  pooled input, its lag features and their trimming to `Spec.bySymbol` of the bars of each
  symbol, for every order of the set of symbols and every history of the lag cache.
* **C94 A model predicts from the same features it was trained on, and only from the past** —
  Invariant of the scope's caches over any reads (`InInv`); refinement of a read to
  `Spec.modelInput`, then to the bars up to the current one.
* **C95 A run's bars are exactly the source's rows in its range, days and times** —
  Refinement of fetching, duplicate check, range, day and time filters to one filter of the
  source's rows by `Spec.Wanted`, and of acceptance to a condition on the call and the rows.
* **C96 A run leaves the caller's data frame as it was** — Frame identity is part of the
  model; case analysis of the operations that copy.  False in one case, see below.
* **C97 An execution has a turn exactly on the bars of its symbols** — `RunSetup.run` composes
  the split, symbol selection, stores, price scope, counters and bar loop; a run is shown to be
  a `runBacktest` (C72) with the bars computed from the data, then counting.
* **C98 A run that exits on the last bar ends without positions** — From C72: a symbol held at
  the end was ordered (`held_since`), so some window played it; afterwards the exit on its last
  bar, or its being dropped (C70), closed it and no later order is possible.  Partial, see below.
* **C99 Orders of a run follow their signal and are placed in play** — C72 and the attempt
  theorems instantiated for whole runs.
* **C100 No look-ahead in a whole run** — Two runs whose data, functions and slippage models agree
  up to a date in lock-step: prices, environments, selections, exits and boundary exits agree bar
  by bar and window by window up to that date.  Partial, see below.
* **C101 Tuning uses training data only** — Two optimizations whose data and functions agree on a
  window's training dates have equal stores of those dates, so each trial's backtest is equal.
* **C102 The best trial is chosen, and scored on the training window** — Induction over the study.
* **C103 The result of an optimization is a run with the chosen values** — The runs of the windows are
  then those of `_run_walkforward`.
* **C104 No look-ahead in walkforward optimization** — C101 for the windows that begin up to the
  date, then the lock-step of C100 with each window's own values.  Partial, as C100.
* **C105 No look-ahead in a single split** — As C104; nothing is dropped, so it is proved in full.
* **C106 Settings of a run** — Case analysis; a run with these settings is a history of calls, so C10
  bounds its positions.
* **C107 Indicators and model input on an interval** — An invariant over any sequence of reads: each
  cache holds what would be computed afresh.  Then the input is cut to the visible bars.
* **C108 Predictions on an interval** — The same invariant; a per-bar prediction only depends on the
  rows up to its bar, and the rest is row by row.
* **C109 No look-ahead on an interval** — C107 and C108 give reads as functions of the visible
  compressed bars; C40 and C47 say which these are.  Partial, as C40, for calendar intervals.
* **C110 Training data on an interval** — The bars kept are a run of the history (C88), so the lag
  features are those of C68; the input equals a specification by row, and the rows are compared
  with those of C107.
* **C111 Pooled training data on an interval** — The pool is a list of (symbol, bar) pairs in symbol
  order; joining, lagging (C68) and trimming (C69) each act on the pairs, and the result is the
  inputs of C110 stacked.
* **C112 Whole shares** — Every share count is a sum, difference, minimum or truncation of whole
  ones: an invariant of histories, and of a run by its history (C97).
* **C113 Tables of a result** — Rows are a map over the logs of the run; rounding is compared with
  "nearest cent" (unique), the integer cast with C112, and the metrics with C56 and C80.
* **C114 Positions table** — The rows of a bar are the loop of `capture_bar` seen per symbol; sums
  over symbols are sums over the books, as in C02 and C73.
* **C115 Accepted configurations and calls** — The checks are compared with the documented limits by
  cases; the arguments of an accepted call are followed into a `RunSetup`, and its rows are those
  of C96.
* **C116 Trades have their orders, orders have their bars** — An invariant of histories over the
  elementary changes of C01: entries keep their origin, an exit appends a trade and its order.  The
  calls of a run (C97) are on bars of their symbols; C115 takes this to calls.
* **C117 The first stop wins** — An invariant of histories: the stops of an entry and the
  registered stops are in the order of their ids.  The fold over the checks of a call then picks
  for each entry the first check that exits.
* **C118 Stops table** — The rows are a function beside `checkStops`; their fold is compared with
  the exits of C117 and with the registered levels of C19.
* **C119 Every order has its source and its price** — An invariant of histories says which call
  made an order (`run_makes`); C97 says which bar and signal the call is for, and C23 which cell of
  the row its price is.
* **C120 Fills stay within the bar** — By cases over C119; rounding to cents is monotone.
* **C121 Fees follow the schedule** — The log invariant of C07 ties each order's fee to the schedule.
* **C122 Cash is not overdrawn without leverage** — An invariant over elementary changes: an opening
  spends no more than the cash there is, a long exit only adds cash, a short exit takes no more than
  its loss.  Lifted to runs because the stop checks and captured bars of a run read rows of the data.
* **C123 The order of the rows does not matter** — A relation between the runs of permuted rows: the
  same windows up to the numbers of their rows, hence the same arrays, calendar and bars.  Selectors
  must not depend on the order of the rows they are given.  The strategies of the model have no
  intervals; with intervals it is false (C127).
* **C124 Rows a strategy does not use do not matter** — The relation of C123 for frames that agree on
  the rows used.  Duplicate rows are looked for over the dates of the strategy, not of the call, so a
  duplicate that the call does not ask for is still refused; hence the second half is about two
  accepted calls.
* **C125 The signals table shows what the sources have** — The tables of a run joined from those of
  its windows: each row of the join is a row of one window, and the windows move forward.  Series and
  predictions are given; what they hold is the subject of C89, C94 and others.
* **C126 Names of sources are unambiguous** — Acceptance as an equivalence on strings; a name of a
  prediction can be read from its end, so two models never share one.
* **C127 A run compresses exactly what its executions need** — Success of the run's compression as an
  equivalence; the keys of the result as an equivalence; the bars by C45 and C46 from the symbol's
  rows.  Partial: rows in date order only.
* **C128 Intervals and bar spacing must fit the timeframe** — Acceptance of an interval as an
  equivalence; the multiple a gap is compared with is the nearest one (rounding lemma), so acceptance
  is stated by nearest multiples in both directions.  Partial: the tolerance is per bar of the gap.
* **C129 Columns are fixed during a run** — A state machine of the process-wide columns with its cached
  order; the state after any history by induction.  Partial: no run inside a run.
* **C130 Every hyperparameter that a run uses has a value** — Each step of the collection adds a list
  of names or raises; such steps compose.  Success as an equivalence, then C84 for the values.
* **C131 A backtest on shorter data is the beginning of the longer one** — The two runs of the driver
  in lock-step, bar by bar: same calendar, active symbols and bars up to the cut, and an order is due
  on the same date.  On the last bar only what is scheduled may differ.  Partial: orders created
  before the cut are due by it.
* **C132 What a function reads on a bar depends on the data alone** — A state machine of the bar
  counters (with the keys that lookups add), the copies kept by each context and the indicator cache.
  Invariant over any history of bars and reads: counters count the rows so far, a kept copy is what
  would be read again.  Partial: symbols that have not traded, contexts read on other symbols' bars.
* **C133 Every trial sees the indicators of its own values** — The pairs split in two; one part is
  computed once, the other per trial, and the dicts are merged.  C28 gives the series of each part in
  any reachable state of cache and memo; an indicator without hyperparameters has the same series for
  all values.  Success as an equivalence.
* **C134 The order of sets does not matter** — The run on reordered executions in lock-step, window by
  window: only membership of the selected symbols is read.  For the symbols to be closed, a list of at
  most one has one order; without selectors none is dropped (C99).  Partial: a window that drops
  several symbols.
* **C135 A result's JSON has the sections and symbols asked for** — The payload is built section by
  section; names and values by induction over the sections.  The tables of a run are stated row by row
  with the fields of a trade, order, position, bar and stop.  Acceptance as an equivalence.  Strictness
  from C63.
* **C136 A seeded search is reproducible** — Optuna is a structure of arbitrary
  functions; what its documentation promises is a hypothesis (`Documented`), shown to be satisfiable.
  Equality of the sequential, batch and grid branches by induction over the trials; seeding by
  induction over the depth of a sampler.
* **C137 compress_bars returns what a run shows** — The groups of C45 and C46 and the data of
  C127; compression does not look at custom columns, so it commutes with leaving some out.
* **C138 Bars can be compressed in steps** — The groups of an interval are determined
  (induction over the groups), groups of groups put together are groups of the coarser interval, and each
  aggregate of aggregates is the aggregate of all.
* **C139 The bootstrap of a result is reproducible and about the run** — The generator is an arbitrary state machine; the shared loop is
  shown by induction to be a map over the rows it draws, and C57 gives the ends.
* **C140 What a function reads of the account is what the result records** — The state in which a function runs (`seenOn`) is a prefix of the
  history of C72; cancelling stops is shown to change no number read, and the rows, orders and trades
  of a prefix stay in the result.
* **C141 The end of the portfolio table is the end of the run** — False when positions are closed by force on the last bar: a
  witness and the exact shortfall of the fees; true when none are, from the step the last bar makes.
* **C142 Built-in indicators see their columns and no later bar** — One inductive type of calls with their arguments; each
  constructor is given the columns as the code does and C49, C51, C53, C77, C78 are lifted to it.
  What a trend, a flow and a volume index read is stated besides, so that arguments cannot be exchanged.
* **C143 A data source returns what its provider has for each symbol** — The answer of a provider is an argument; what
  `yfinance.download` documents is a hypothesis (`Joined`).  The reshaping of the answer of several
  symbols is proved to be one row per date and symbol by arithmetic on positions; AKShare's loop by
  induction on the symbols.
* **C144 The unit of money does not matter** — What every record is in another unit is defined
  record by record; each function of the portfolio, of stops, of pending orders and of the loop is proved
  to commute with it, then the whole run by induction over bars and windows.  User code is related by a
  hypothesis (`InUnit`).  With rounding of fill prices a counterexample.
* **C145 The metrics in another unit of money** — All of `EvalMetrics` is put together in one record; each
  function is proved to commute with a factor, the loops by induction, and the result is combined with C144
  for whole runs over the real numbers.  For the profit factor only its side of 1, with a counterexample.
* **C146 Annualised metrics** — On the record of C145 over the real numbers, with
  `np.power` as the real power, which is not a number for a negative base and an exponent that is not whole.
  The last sentence fails when a run realises a loss of more than the initial market value; the theorem says
  exactly when.
* **C147 Caches that are enabled, disabled and cleared** — A world of directories and processes, each with three
  optional cache objects over the layered cache of C59; refinement to a map per directory by an invariant
  over histories.  The last sentence fails for processes that run at the same time: counterexample.
* **C148 Parallel work** — A pool is a fold over a schedule (worker, task) of steps that install
  the shipped scope and run the task; refinement to the loop in the caller's process for every complete
  schedule.  `joblib` itself is assumed to run each task once.  With a pool that returns a generator the
  windows of an optimization fail: counterexample.
* **C149 Only the order of dates matters** — Renaming of the dates of every record; a commuting lemma for each
  function of the run, from the portfolio up to `_run_walkforward`; functions of user code correspond in the
  specification, and every run is shown to have a renamed one.
* **C150 Registering a model** — Arguments are described by what the code looks at (types, names, the kinds of
  parameters); Python's rules for binding arguments are written down as a function.  An equivalence for each
  part of the call; induction on the history from its end for the last registration.
* **C151 No look-ahead in a run with models** — The run of C100, whose functions are given the predictions.  Training data of a window
  with a bar up to the date are before the date, so bars, indicator values and lag rows in the training input are
  equal, and so is the model; a pooled input is the bars of its group sorted by symbol and date, and the groups depend on
  training rows only.  The input over the test window has the same shape and the same first rows, so the
  predictions up to the bar agree.  Then C100.
* **C152 Sessions are kept per symbol for the whole run** — A run whose user code has a state, and sessions as that state with a record of each look at
  one.  By induction over bars and windows: the looks at a symbol's session form a chain that starts empty, and the
  looks of a bar are those of the hooks and of the functions of the symbols with a turn.
* **C153 No look-ahead by functions that keep state** — State is handed from bar to bar like the loop, so the proof of C100 carries it along; what is
  given on a bar is recorded and compared.  Dates in a window and numbers of windows differ, so the states of a run can be
  read off by window and date; with them user code is a function of the bar as in C100.
* **C154 Names of symbols matter only through their order** — Every record has a renaming; each step of the run of C100 (orders, stops, fees, signals, window
  boundaries) on renamed records is the renaming of its result, by injectivity alone.  Only the sorted list of
  symbols in a store needs the order.  Then induction over bars and windows.
* **C155 A symbol that nobody trades does not change a run** — An invariant of the loop: positions, stops and pending orders are for symbols that are traded.  Under
  it each step of a bar gives the same for two environments that agree on these symbols, and closing any
  other symbol does nothing.  The windows, the calendar and the turns of the traded symbols are the same
  because they depend on the set of dates.  Then induction over bars and windows.
* **C156 Deviation and trend indicators measure the least-squares polynomial of the window** — The weights are shown to be orthonormal (parity and a count of roots) and to span the polynomials on
  the window.  So what the fit leaves is orthogonal to each polynomial of the degree, and by Pythagoras the
  fit is the only one of least squares.  Over each ordered field whose square root is one; instantiated at
  the real numbers.
* **C157 Indicators are the statistics they are named after** — The loops are rewritten as sums over the window, the products as the slope of the fitted line (what a
  fitted line leaves is orthogonal), the running averages of the RSI by induction over bars.
* **C158 Averaged indicators in closed form** — An exponential average is specified as a sum with weights that fade with age, and a Wilder sum as one
  whose weights fade after bar n.  Each satisfies the recurrence of the loop, so the state of the loop after a
  bar is the sum, by induction over bars; the phases of `adx` are joined at their seams.
* **C159 Runs that continue a portfolio** — A run on a portfolio that is the result of a list of calls is shown to make a list of calls that comes
  after it; the invariant of the loop holds at the start of a run for any portfolio, since no order is pending.
  By induction over the runs the portfolio of a chain is the result of one list of calls, and the theorems about
  such lists apply.
* **C160 A strategy without trading rules only trains** — The run without rules is modelled window by window, with the closing of dropped symbols that comes before
  the test for `train_only`; by induction over the windows nothing is dropped.  A portfolio that holds another
  symbol is the counterexample.
* **C161 Indicators that carry a state** — The state of the loop after each bar is stated in terms of the series: extremes by their defining property,
  averages as sums with fading weights, the filter by its recurrence (which determines it).  The two loops of
  `reactivity` keep one invariant, so they agree at the seam; both extremes are unique.
* **C162 Optimizing a strategy with pretrained models** — `Preloaded` puts the models in front of the optimization of C104: a trial reads the training bars, with lags
  from the same bars; the test reads the test bars, with lags from the whole window.  Predictions are compared with the
  lemmas of C151, with the number of bars a function has been given in place of the bar counter; `seen_given` shows
  that on each bar of a run they are the same.  The optimization theorems of C104 do the rest.
* **C163 Which symbols share a pooled model** — The groups of the run of C151.  Executions of a window do not overlap (C64), so a symbol is in at
  most one group; the pooled input of a window is the bars of the group (as in C93).
* **C164 A stock split does not matter** — Each method of the portfolio commutes with splitting its records (`Verif/Portfolio/Split.lean`),
  per symbol, and the history follows by induction.  The level a stop reads belongs to a stop of the
  same symbol because stop ids are unique (C21).  False when an order is cut to the buying power,
  because it is cut to whole shares, and for fees per share: both with a witness.
* **C165 Training models directly on two frames** — The merge of the stores of two frames is the store of the frames put together
  (`merge_stores`, both sides are sorted permutations of one another), then the argument of C88.
  The history has no bars of a gap between the frames, so the test lags can differ from those of a
  strategy run (`direct_gap_differs`); the order of the frames matters (`direct_order_needed`).
* **C166 Confidence intervals nest** — `normal_cdf` is increasing (its polynomial has a positive derivative, the two halves meet because
  the tail at 0 is at most a half), the acceleration is at most 1/6 in absolute value (the sum of
  cubes is at most the 3/2 power of the sum of squares), the quantiles are at most 4.01 + 1.97 < 6
  with up to 32768 samples, so the denominators of the levels are positive and the levels are in
  order.  False for more samples: a witness with 131072.
* **C167 Normal quantiles increase** — The rational function of the code is increasing in `t` (cross-multiplied, all coefficients are
  positive) and `t` decreases in the probability; the value at the median is bounded with nine digits
  of log 2.  It is on the wrong side of 0, so the claim fails across the median, by at most 2.4e-7, and
  at 0, which stands for 1e-10: both with a witness.
* **C168 The Ulcer Index is the root mean square of the drawdowns** — The peak of the loop is the highest value so far, by induction on the values read; with a period the
  high is that of the deque of `highv` (see C49).  A drop of values that are not negative is
  between -100 and 0, so the mean square is at most 100^2.  A witness shows that with as many values as
  the period a falling curve has index 0.
* **C169 Cancelling stops cancels those and only those** — A stop id is on one entry only, bar stops included (an order with the id opens one entry, and no later
  order has it: induction on the history).  So erasing a stop by equality, or from the first entry that
  carries the id, is filtering all books; the armed stops follow because they are the attached ones (C21).
  False by type for an entry with two stops of the type: a witness.  The stops of a strategy's orders
  have distinct types (C66).
* **C170 Indicators in another unit** — Over any ordered field, with a logarithm that turns products into sums.  Ranges and filters are
  homogeneous (a loop on scaled inputs is the scaled loop), ratios cancel the factor, logs shift by a
  constant that weights of sum zero and means remove.  The indicators that add a constant such as `1e-60`
  to a price depend on the unit: a witness for the stochastic, and bounds for it and adx from
  two loops run side by side.
* **C171 Progress bars** — The bar is its total, the output a list of lines, drawings and ends.  Bars of one thread by induction
  over the updates; threads as a transition system with one access of the shared bar per step, with the
  invariant that only the thread that is not silenced is within a call, and then there is a bar.  Two
  findings: a bar that outlives its backtest, and two showing threads.
* **C172 More capital, larger orders** — A split of every symbol (C164) followed by another unit of money (C144): the two change prices in
  opposite directions, so that prices stay and shares and amounts grow.  Fees are first written as a
  function of the order, which changes nothing (`run_fees`).
* **C173 What a function reads of hyperparameters and global parameters** — Objects are numbered in the order in which they are made, since add_execution compares identities.
  The state after a program is described by its last actions (induction over the program), and the values
  of a run by C84 and C130.
* **C174 Compressed bars restricted to dates** — The arrays are modelled one by one with the boolean mask, and compared with the bars seen as rows
  (induction over the dates).  Partial because the code drops the VWAP and the custom columns when it is
  given no date (`slice_by_no_date_loses_columns`).
* **C175 The data frame of bars** — The dict behind the frame is modelled with its updates; the custom fields are keyword arguments, so that
  they are new keys (induction over them).  Names that are attributes of every Python object are left
  out.

## What is modelled

* `portfolio.py`: `Portfolio.__init__`, `_calculate_fees`, `_verify_input`,
  `_clamp_shares`, `_add_order`, `_add_trade`, `_add_stops`,
  `_remove_stop_data`, `_exit_long`, `_exit_short`, `_update_position`, `buy`,
  `sell`, `exit_position`, margin and buying power, interest, `capture_bar`,
  `incr_bars`, `check_stops` and its triggers, `_capture_stop`, `remove_stop(s)`.
* `slippage.py`: `FixedSlippageModel`, `VolatilitySlippageModel`,
  `VolumeSlippageModel`; `vect.py`: `_atr` (last value).

* `scope.py`: `PendingOrderScope`.
* `strategy.py`: `backtest_executions` (the bar loop), `_schedule_order`,
  `_next_master_date`, `_place_buy_orders`, `_place_sell_orders`,
  `_process_persistent_orders`, `_attempt_pending_order`, `_exit_position`,
  score sorting; `_rank_by_score`, `_rotation_exits`, `_rotation_candidates`,
  `_resolve_rotation_overlap`, `_apply_worst_rank_held`.  User code is an arbitrary input of each bar: its
  cancellations and its execution results.

* `strategy.py`: `walkforward_split`, `_walkforward_row_mask`.

* `scope.py`: `SymbolArrayStore`, `symbol_array_store_from_flat_frame`,
  `slice_symbol_array_store_by_dates` and its merge, `ColumnScope` reads,
  `IndicatorScope` reads, `_PerBarPredictions`, `PredictionScope`, `PriceScope`;
  `strategy.py`: `_date_to_active_syms` and the bar counters of the loop.

* `scope.py`: `get_signals`, `register_custom_cols`, `unregister_custom_cols`, `ordered_data_cols`,
  `validate_registered_names`; `strategy.py`: the signals of `_run_walkforward` and the names in
  `_indicator_syms` (without interval bindings).

* `interval.py`: the bins of calendar and duration intervals, `_find_bins`,
  `_aggregate_bins`, `_aggregate_custom_cols`, `_aggregate_vwap`,
  `_compute_completed`, `_compress_every_n_bars`, `compress`, `slice_for_test`;
  `IntervalScope.completed_index` and `fetch_bar` of `scope.py`.  The month and
  year of a date are arbitrary functions (they come from numpy's calendar).
  `base_timeframe_to_seconds`, `_base_spacing_tolerance`, `_validate_symbol_dates_for_base`,
  `validate_interval`, `_symbol_row_groups`, `_extract_ohlcv_arrays_masked`,
  `compress_symbol_intervals_from_frame`, `compress_intervals_from_frame`; `strategy.py`:
  `_all_intervals`, `_symbol_intervals`, `_build_interval_data`.  Where the code iterates over a
  set, the model takes one order; only which of several errors is raised depends on it.

* `common.py`: `parse_timeframe`, `to_seconds`; `data.py`: `_format_timeframe`;
  `interval.py`: `_normalize_duration_string`, `normalize_interval`,
  `format_interval`, `normalize_intervals`, `validate_source_name`,
  `indicator_interval_name`, `parse_indicator_interval_name`.  Strings are lists
  of characters and digits, letters and white space are the ASCII ones.

* `vect.py`: every function: the rolling extremes and sums with
  their deques and NaN/infinity counters, and the indicators over any ordered field, with
  `log`, `sqrt`, `exp` and `normal_cdf` arbitrary (`Fns`); `normal_cdf` and `inverse_normal_cdf` themselves over the reals.

* `eval.py`: every metric function, over any ordered field, with `log`, `sqrt` and powers
  arbitrary; `_bca_intervals_from_boot` with `inverse_normal_cdf` and `int` arbitrary; the
  random indexes of the bootstrap are an arbitrary table.  Arrays hold no NaN or infinity.
  `ulcer_index` with a period is in `Verif/Eval/Ulcer.lean`; negative periods are not modelled.

* `strategy.py`: `_to_test_result`, with `quantize` of `common.py` and `evaluate` of `eval.py` on the
  tables; data frames are lists of rows.  The stops and signals tables
  and the bootstrap are modelled apart (C118, C125, C139).

* `strategy.py`: `Strategy.__init__`, `_verify_config`, `set_max_long_positions`,
  `set_max_short_positions`, `enable_rotation`, `backtest`, and the checks and the flow of arguments
  in `walkforward`.  `train_only` and `portfolio=` are in `Verif/Backtest/Given.lean`
  (C159, C160), the bootstrap and parallel work are modelled apart (C139, C148).  Not modelled there:
  the timeframe and the columns registered in the scope.

* `log.py`: `disable`, `enable`, `_suppress` and `_is_disabled` (`Verif/Parallel/Model.lean`, C148),
  `_start_progress_bar`, `_update_progress_bar` and their callers (`Verif/Log/Bar.lean`, C171).  Not
  modelled: the texts of the messages, the levels of `logging`, and the times.

* `cache.py`: `_L1Cache`, `_legacy_key`, the data source and model keys; `data.py`:
  `get_cached`, `set_cached`, `DataSource.query`.  `diskcache` is a map that may drop
  entries; a source is its class name and an arbitrary fetch function that does not raise.

* `common.py`: `_json_safe`, `_json_safe_key`, `_dataframe_records`,
  `_selected_symbol_list`, `_resolve_execution_symbols`, `_resolve_executions`,
  `_selected_symbols`, `_selection_df`; `strategy.py`: the symbol checks of
  `add_execution`, `clear_executions`, `_liquidate_dropped_symbols`,
  `_exit_dropped_at_bar`.

* `optimize.py`: `Hyperparam` (checks, length, candidates), `SearchSpace.grid_size`,
  `_search_space_from_specs`, `build_run_hyperparams`, `_resolve_hyperparams`,
  `_resolve_n_trials`, the parallel branches of `_run_study`.  A decimal is an exact rational
  (28 digits are not modelled) and its conversion to float an arbitrary function.

* `optimize.py`, `strategy.py`: `optimize` with a single split, `_optimize_walkforward`,
  `_run_optimize_trial`, `_run_optimize_test`, `_resolve_backtest_settings`, `_effective_config`,
  `_validate_worst_rank_held`.  Optuna's samplers are arbitrary functions of the window and the
  trials so far; its best trial is the first with the best value.  Indicators and models are part
  of the arbitrary user code: what a function sees of them up to a date is taken to depend on data
  up to that date (for the built-in indicators this is proved).
* `context.py`: `calc_target_shares`, `set_target_shares`, `sell_all_shares`,
  `cover_all_shares`, `_create_stop`, `_get_stops`, `_is_noop_bar`, `to_result`,
  `set_exec_ctx_data`; `strategy.py`: `_reset_rotation_orders`,
  `_clear_unused_rotation_signals` and the use of both on a rotation bar.  Settings are
  typed: type checks have no counterpart.
  Reads: the columns and single values, `foreign`, `indicator`, `bars`, and what
  `set_exec_ctx_data` drops; `input`, `preds` and `interval` are modelled with their scopes.

* `model.py`: the lag cache (`_build_stacked_lags_njit`, `_store_stacked_lags_in_cache`,
  `cached_stacked_lags`, the `merge_*` functions), `build_lag_feature_matrix` alone and pooled,
  `ModelInput.lag_warmup_len`, `drop_lag_warmup`, `_symbol_model_input_from_store`,
  `apply_lags_to_model_input`, `_pooled_model_input_from_store`,
  `merge_lag_series_cache_from_store`, `apply_lags_to_model_input_pooled`, the lag part of
  `_prepare_pooled_data`; `strategy.py`: `_build_window_stores`; `interval.py`:
  `lookahead_train_dates`, `slice_arrays_by_dates`, `build_compressed_symbol_arrays`, with
  `_prepare_interval_symbol_data` and `_prepare_pooled_interval_data` (not their warnings).  Not modelled: `input_data_fn`, the
  data frames and hyperparameters passed to `train_fn`.

* `scope.py`: `ModelInputScope` and `_resolve_lag_cols`; `model.py`: `_infer_input_cols`,
  `_lag_feature_cols`, `prepare_input_data`, `apply_prepare_input_data`, `ModelInput.slice`.
  `input_data_fn` is an arbitrary function of the columns.  A data frame is its columns: the
  index of a frame without columns is not modelled.

* `scope.py`: `IntervalScope` (indicators, model input, lag features, predictions and their
  caches); `model.py`: `merge_interval_lag_series_cache`, `ModelInput.slice_range`.  A prediction
  function is arbitrary but does not raise.

* `strategy.py`: `_between`, `_fetch_data`, `_reject_duplicate_bars`, `_to_day_ids`,
  `_filter_dates` and the date checks of `walkforward`; `common.py`: `_ensure_range_index`,
  `Day`.  Dates are nanoseconds in UTC; the strings of `between_time` are not parsed.

* `indicator.py`: `Indicator.__call__`, `_indicator_args`, `_run_indicators`, the memo
  (`_memo_key`, `_get_memoized_indicator`, `_set_memoized_indicator`), the indicator cache
  (`_get_cached_indicators`, `_set_cached_indicator`, `IndicatorCacheKey`),
  `compute_indicators`, `IndicatorSet.__call__`.  The function of an indicator is arbitrary.
  The constructors `highest` … `laguerre_rsi` are in `Verif/Indicator/Builtin.lean`.  Not modelled:
  process pools.

* `model.py`: `train_models` (grouping, caching and collecting results),
  `_get_cached_models`, `_load_pooled_group_cache`, `_has_uncached_pooled_groups`,
  `_set_cached_model`, `_uses_hyperparams`, `_model_cache_lookahead`, `ModelCacheKey`; the
  request of a window in `strategy.py`.  Preparing and fitting one task is an arbitrary
  function that may raise.

* `strategy.py`: `_run_walkforward`, `_build_exit_dates` and the per-bar part of
  `backtest_executions` as one function from the data, configuration and user code to the end
  of the run (`RunSetup.run`).  User code is an arbitrary function of the window, the date,
  the bars so far, the loop's state and the active symbols.  Left out there: training, signals, `train_only`,
  logging.

Iteration in `sorted(...)` order is modelled by `List.insertionSort`, a stable
sort like Python's.

* `scope.py`: the registration, order and freezing of data columns (`StaticScope`).
* `optimize.py`: `_partition_indicator_syms`, `_compute_invariant_indicators`, the indicators of model
  loading, trials, tests and the replay; `strategy.py`: `_indicator_syms`.  A replay loads its models
  with the indicators of the window's values, a study with those of the defaults; only pretrained
  models are accepted, and what their loading does with indicators is not modelled.
* `strategy.py`: `TestResult.to_json`, `_filter_df_symbols` and the frames of `_to_test_result`;
  `common.py`: `_dataframe_records`; `eval.py`: `EvalMetrics.to_json`, `BootstrapResult.to_json`;
  `optimize.py`: `_study_summary`, `WindowOptimizeResult.to_json`, `OptimizeResult.to_json`.  Column
  names of a frame differ from each other; dates are texts; pandas' types of columns are simplified.
* `optimize.py`: `collect_hyperparams`; `strategy.py`: `_indicator_syms` (names).
* `optimize.py`: `_suggest_from_spec`, `_trial_params`, `_reseed_sampler`, `_build_sampler`,
  `_validate_grid_sampler`, `_validate_study_direction`, `_sampler_grid`, `_run_study` and the
  samplers and seeds of `optimize` and `_optimize_walkforward`.  Optuna's samplers are trees that
  share nothing; continuing a grid study that has visited all its points, and stop flags set by other
  samplers, are not modelled.
* `interval.py`: `compress_bars`, `is_valid_interval`, `_ohlcv_from_bar_data`,
  `compressed_bars_to_bar_data`.  Custom columns are numbers (text raises).
* `eval.py`: `_fill_bootstrap_row`, `_seed_bootstrap`, `bootstrap_eval_all`, `conf_profit_factor`,
  `conf_sharpe_ratio`, the bootstrap of `evaluate`, `_to_conf_intervals`.  Numba's generator is
  arbitrary; `bars_per_year` is not negative.
* `context.py`: the portfolio reads of `BaseContext` and `ExecContext` (`total_equity`, `cash`,
  `total_margin`, `buying_power`, `margin_loan`, `net_cash_balance`, `total_market_value`, `win_rate`,
  `loss_rate`, `pos`, `positions`, `long_positions`, `short_positions`, `long_pos`, `short_pos`,
  `_verify_pos_type`).  `orders()` and `trades()` iterate the portfolio's lists.
* `indicator.py`: `highest` ... `laguerre_rsi` (all functions from line 750 to the end);
  `common.py`: `BarData`.  Arrays without NaN; lengths are natural numbers.
* `data.py`: `_parse_alpaca_timeframe`, `Alpaca._fetch_data` (after the request),
  `YFinance._fetch_data`; `ext/data.py`: all of it but the calls of the providers.  `AlpacaCrypto` is as
  `Alpaca` with one more column.  Adjustments of Alpaca, time zones and texts of dates are not.
* `model.py`: `model`, `_validate_lagged_train_fn`, `_parse_lag_cols`, `ModelTrainer.__call__` and `train_pooled` (the
  arguments they pass), `_parse_model_result`; `scope.py`: `set_model_source`.
* `strategy.py` 3133-3193, `model.py` 2123-2300 and `scope.py` 2080-2216: training and reading models of single symbols in
  a run, for models of a symbol and pooled models, without models on longer intervals and caches.
* `strategy.py` 824, 952-962, 3071 and 3199: sessions over the windows of a run.  An assignment to the attribute `ctx.session`
  itself, which would last until the window ends, is left out.
* `strategy.py`: the parameter `portfolio` of `walkforward`, and `train_only` (2813-2874, 789-794, 3497-3510), `Verif/Backtest/Given.lean`.

## What is not modelled

* The texts, levels and times of log messages, plotting and pickling; of threads and process pools all but
  what C148 and C171 say.
* Network access and vendor data sources.
* Rounding of `Decimal` and `float` other than the explicit roundings.
* The state left behind by a call that raised.

## Where the code falls short of the English property

* **C174** `slice_by_dates` given no date drops the VWAP and the custom columns, while a date without a bar keeps them (`slice_by_no_date_loses_columns`).
* **C172** an order cut to the buying power is cut to whole shares, so that a larger account invests a larger part (`cut_order_larger_differs`).
* **C171** a bar that was hidden at its last date stays in the logger, and a later backtest that begins hidden and is shown later draws it, beyond its end (`stale_bar`); two threads that both show their progress share one bar, and one can end it between the other's check and use, which raises (`bars_can_crash`).
* **C170** stochastic, the RSIs, adx and macd add a constant (1e-60, 1e-10, 1e-15) to a difference of prices, so that they depend on the unit of money (`stochastic_unit_shown`, visible only for tiny prices); price_volume_fit takes the log of volume plus 1 and depends on the unit of volume.
* **C169** `remove_stops` with a type removes only the first stop of that type of each entry; an entry that was given two through `Portfolio.buy` keeps the second, armed (`cancel_type_leaves_second`).
* **C167** `inverse_normal_cdf` is not increasing across the median, where its value is about `1e-7` instead of 0 (`quantile_median_inverted`), nor at 0, which stands for `1e-10` (`quantile_zero_inverted`).
* **C166** With more than 32768 bootstrap samples a confidence interval can be inverted: the acceleration is at most 1/6, and the denominator `1 - accel * (z0 + z)` changes sign once `z0 + z` exceeds 6.  With 131072 samples of one gain and 100 bars without, the low end of the widest interval of the sum is 101 and its high end 0 (`many_samples_inverted`).
* **C164** An order cut to the buying power is cut to whole shares, so a split changes what it buys (`cut_order_split_differs`); a fee per share is charged on the shares after the split (`fee_per_share_split_differs`)
* **C160.** A strategy without trading rules that is given a portfolio closes the positions in symbols it does not select: `_liquidate_dropped_symbols` comes before the test for `train_only`. The result has no orders, so only the portfolio shows it (`train_only_sells`).
* C151: a training function is given its window's test data, so a model can carry later prices to earlier bars
  (`training_sees_ahead`, `pooled_training_sees_ahead`).  A model that is not `per_bar` predicts the whole test window at once, and so sees later
  bars unless it works row by row (`model_window_sees_ahead`).  An `input_data_fn` is given the whole test window once,
  and a `per_bar` model slices what it returned: subtracting a column's mean there shows later prices to earlier
  bars, `per_bar` or not (`input_function_sees_ahead`).
* C150: `_validate_lagged_train_fn` looks for parameters named `lag_train` and `lag_test` anywhere, so a function that has
  them among its first three, which are passed by position, is registered; each training then raises a `TypeError`
  (`lagged_not_callable`).  A string given as `lag_cols` is read letter by letter (`lag_cols_text_split`).
* C148: `set_parallel` accepts a pool with `return_as="generator"`, with which `walkforward_optimize`
  raises a TypeError; what a task writes into the scope is lost in a worker process; setting a pool forgets the
  backend, so that a later call with the jobs alone does not keep it (`generator_breaks_windows`,
  `writes_not_shared`, `pool_forgets_backend`).
* C147: clearing a cache in one process does not reach the values that another running process holds in
  its in-process layer; `clear_caches` stops at the first cache that is not enabled, with the ones before it
  already empty (`clear_unseen`, `clear_caches_halfway`).
* C146: `annual_return_pct` is NaN after a realised loss of more than the initial market value, unlike
  `calmar` and `upi`, which guard against it (`annual_return_nan`).
* C145: `profit_factor` adds 1e-10 to the gains and the losses whatever the unit, so its value depends on
  the unit (`profit_factor_depends_on_unit`).
* C144: `round_fill_price`, on by default, rounds prices to cents whatever the unit: a run that trades in
  one unit raises in another because its price becomes 0 (`rounding_depends_on_unit`).
* C143: YFinance gives every asked symbol a row on every date on which one of them has a bar, without
  values if it has none, so the answer for a symbol depends on the symbols asked with it, and with the
  cache on the earlier queries (`yf_depends`).  It passes `end_date`, documented as inclusive, to
  `yfinance.download`, which excludes it (`yf_end_missing`).  An empty answer that has columns is
  returned as it is and the query is refused for missing columns (`yf_empty_refused`).  AKShare is asked
  for the code without the exchange, so `000001.SH` and `000001.SZ` get the same bars
  (`ak_same_code`).  YFinance ignores the timeframe (documented).
* C141: with `exit_on_last_bar` the positions are closed after the row of the last bar has been
  captured, and nothing is captured after (strategy.py:955 and 1032-1044).  The last row of the table
  still shows them held, `total_fees` lacks the fees of those exits, and `unrealized_pnl` is what they
  were worth before (`table_ends_before_run`, `total_fees_short`).
* C139: a run whose market value never changes has the profit factor 0 and bootstrapped intervals
  from 1 to 1 (`bootstrap_flat_run`).  The interval labelled `97.5%` is cut at 2.5% on each side and so
  spans 95% of the replicates, `95%` spans 90% and `90%` 80% (`interval_label`,
  `interval_label_999`).  With `bars_per_year=0` the metric is multiplied by 0 and the intervals are
  not annualised.  The documentation of `conf_intervals` says that it is about the logarithm of the
  profit factor; it holds the exponentials.
* C138: weeks to months is not a step (`weeks_to_months_differ`), and without volume the VWAP of
  steps is a mean of means (`means_of_means_differ`).
* C137: `compress_bars` does not look at the spacing of the bars of a `BarData`, nor at the order of
  the rows of a frame: bars a second apart pass as days, and rows out of order give other bars
  (`spacing_and_order_unchecked`).  Without bars the custom columns and VWAP are left out.
* C136: `_reseed_sampler` gives each delegated sampler "a distinct derived seed", but the seeds add up
  along the way: the generator two `_random_sampler` deep gets the seed of the
  `_independent_sampler` (`derived_seeds_repeat`).  Generators more than three delegations deep keep
  their state (`deep_state_kept`).
* C132: `sym_end_index` is a `defaultdict`, so a lookup adds its key.  `ctx.foreign` of a symbol that
  has not traded raises, but gives data without bars once anything has looked the symbol up, such as
  `ctx.indicator` (`foreign_depends_on_reads`).  The copies that `ctx.foreign` keeps are dropped only
  for symbols with a row on the bar, so a context that user code keeps shows old data on other bars
  (`kept_context_is_stale`).
* C134: `_liquidate_dropped_symbols` iterates over a `frozenset` of strings.  If a window drops several
  symbols, their orders and trades are numbered in an order that changes with `PYTHONHASHSEED`, from
  process to process (`dropped_in_set_order`); everywhere else the code sorts.
* C131: an order is only registered as pending when the data have the bar it is due on
  (strategy.py 1095-1113).  User code that looks at its pending orders therefore learns from them
  whether that bar exists, and can trade differently on data that end earlier
  (`pending_shows_next_bar`).
* C129: freezing does not count, so a run inside a run (a callback or a training function that runs
  another strategy) unfreezes the columns of the outer run when it ends (`nested_run_unfreezes`).
* C130: a hyperparameter that is defined again under its name takes the place of the one an indicator
  was made with.  In a run the indicator gets the new default, on its own the old one
  (`redefined_hyperparam`).
* C127: everything else of a run reads a sorted copy of the data, but compression takes each symbol's
  rows in the order of the frame, and nothing sorts or checks it.  A frame whose rows are not in date
  order is accepted, its compressed bars mix other days, and a bar of a later day can be the completed
  one on an earlier day (`rows_out_of_order`).  If the misplaced dates are in a test window,
  `slice_for_test` looks them up by binary search and usually raises; otherwise nothing is reported.
* C128: the tolerance is multiplied by the number of bars in the gap, so long gaps are accepted
  whatever they are (`long_gaps_accepted`): minute bars half an hour and a half minute apart, and any
  gap of two weeks between daily bars.  For bars of one second every gap is accepted, down to a
  nanosecond (`uneven_gaps_accepted`).
* C126: the check of a run looks at the indicators of its executions but not at those its models were
  registered with, which are computed too (`model_indicators_unchecked`); such an indicator named
  `close` takes the place of the close in the signals (`signals_overwritten`).
* C121: a fee function is never called when `fee_amount` is not set (`fee_function_ignored`);
  nothing is charged and nothing is reported.
* C122 is stated with fees and short losses because neither is reserved: a buy with all cash pays its
  fee out of cash it does not have (`fees_overdraw`), and a short can lose more than its entry value
  (`shorts_overdraw`).
* C14: an order that flips a position at leverage above 1 can exceed the cap,
  because the cover's fee and loss are not reserved
  (`leverage_cap_flip_fails`).
* C19: a bar with a finite close but a NaN high makes a long trailing stop's
  level NaN, and the stop never fires again (`trailing_lost_on_missing_high`).
  The same holds for a NaN low and a short trailing stop.
* C24: a stop that closes an entry opened since the last mark while older
  entries stay open leaves that entry's shares and cost counted as unmarked, so
  the position's marked value (and buying power) is wrong until the next mark
  (`unmarked_wrong_after_stop`).  The code assumes that entries exit oldest
  first.
* C26: on a bar whose low is above its high the true range is negative and
  volatility slippage improves the fill (`volatility_improves_bad_bar`); the
  property is stated for bars with low at most high.
* C30: `_pending_order_priority` recognises a cover by its exit flag, which only
  `cover_all_shares` sets.  The request added to the registry has no cover flag
  (`cover_flag_lost`), so a limit order made with `cover_shares` is placed with
  the covers on its first bar but retried after sells
  (`cover_retry_after_sell`), contrary to the docstring.
* C38: a train size above 1 is documented as invalid but not rejected; with one
  date and several windows it raises `IndexError` (`split_index_error`).
* C40: for a calendar or duration interval, whether the run of base bars ending on
  bar t is shown on bar t depends on whether a later base bar exists and starts
  another bin (`interval_shows_next_bar`).  No price of a later bar is used: the
  visible bars are otherwise a function of the bars up to t
  (`calendar_visible_partial`).  An interval of n bars has no such dependence
  (`count_no_future`).
* C53: `adx` returns all zeros for fewer than 2*lookback bars, so its first values change
  when later bars arrive (`adx_not_causal`).  With lookback 1 and no bar with volume so far,
  `price_volume_fit` of an earlier bar depends on a later bar's volume
  (`priceVolumeFit_no_volume`).
* C58: the fast jackknife of the plain `profit_factor` gives 1 for a sample without changes,
  where `profit_factor` gives 0 (`jackknife_pf_differs`).  The log version agrees everywhere
  (`jackknife_log_pf`).
* C59: reading by a dataclass key after writing or deleting by its older string form is
  answered from memory with the old value (`text_write_stale`); a stored `None` hides the
  older entry in memory only (`none_write_masks`); `set` keeps the older entry on disk, so
  it comes back when the disk drops the newer one (`culled_resurrects`).
* C61: the data source key holds the class name, not the settings: two `YFinance` objects
  with different `auto_adjust` share entries (`settings_not_separated`).  It holds the
  timeframe's length, not its text: `24h` and `1d` share entries
  (`timeframes_not_separated`).  The indicator key holds neither the data source nor `adjust`
  nor the indicator's function or arguments: with the cache enabled, a run on other data of
  the same dates gets the series of the first run (`indicator_data_not_separated`), and so
  does a run after another function is registered under the name
  (`indicator_redefined_not_separated`).  The same holds for the model key
  (`model_data_not_separated`), although a comment in the code says that the training dates
  describe a base-timeframe model completely.
* C62: `parse_timeframe` only compares the number of matches with the number of
  words, so text such as `1h30m ?` is accepted (`timeframe_accepts_junk`).
* C63: a finite `Decimal` or long double beyond the float range is written as a raw infinity
  (`json_overflow`) or raises (`json_overflow_raises`); distinct keys can become the same JSON key,
  and the earlier entry is lost (`json_keys_collide`).
* C65: `set_target_shares` looks at one side only, so with a position on the other side the net
  holding after the order is not the target (`target_ignores_opposite`); a second target on the
  same bar does not take back the first and can make `to_result` raise (`targets_collide`).
* C67: a step below the resolution of floats gives equal candidates, so `len()` and
  `grid_size()` count points that coincide (`lattice_duplicates`); the default may lie outside
  the bounds (`default_unchecked`).
* C70: with empty test data the code exits on the last bar of the whole data set; the theorem asks
  for test data, which every window of the split has.
* C73: the recorded short margin is not reduced when shares are covered on a bar
  on which the symbol has no close (`margin_stale_without_close`).  The recorded
  `pnl` is documented as realised profit but is equity less initial cash, which
  includes the unrealised profit of longs (`recorded_bar`).
* C77: `delta_on_balance_volume` (`deltaObv_leaves_range`) and `macd` with smoothing
  (`macd_leaves_range`) leave the documented [-50, 50]: each is a difference of two
  values in that range.
* C87: `_clear_unused_rotation_signals` clears the sell fill price of a long entry, so the exit of
  its holding period fills at the middle price instead (`rotation_drops_hold_fill`).
* C88: `shuffle=True` is documented to shuffle the data used for training, but the rows are sorted
  again when the window's store is built, so models never see the shuffled order
  (`shuffle_no_effect`).
* C96: with a symbol selector and a data frame whose rows all lie in the strategy's range, the
  run works on the caller's own frame and takes the time zone off its date column in place
  (`caller_frame_stripped`).  With fixed symbols the frame is copied first.
* C98: warm-up is counted again in every window, and a symbol in its warm-up has no turn, not
  even to exit; if its last bar is among the first bars of a window its position stays open
  although `exit_on_last_bar` is set (`exit_on_last_bar_warmup`).
* C100: a symbol that a selector drops is closed before the window's first bar at the price of the
  symbol's first bar in the window; when that bar is later, a price of the future decides the cash
  of the bars before it (`dropped_sees_ahead`).
* C104: as C100, in the stitched run of a walkforward optimization (`tuning_sees_ahead`).
* C109: as C40, on a calendar or duration interval whether the model predicts for the bin that ends
  now depends on whether the next bar is in another bin (`interval_preds_show_next_bar`).  A model
  that is neither per bar nor row by row is given the whole test window at once and sees its
  later bars (`whole_window_sees_ahead`).
* C111: when `lookahead` leaves no training bars, a model of one symbol is given an empty input and a
  warning; a pooled model that names its `lag_cols` raises that these are missing (the second case
  of `pooled_interval_training`), because the empty pool has no columns.
* C112: `Portfolio.buy` and `sell` called directly do not truncate the request
  (`portfolio_keeps_fractions`).
* C113: with `round_test_result`, the default, the metrics are computed from rounded amounts; a trade
  that gains less than half a cent is not counted as a winner (`rounding_hides_winners`).
* C114: in the positions table `equity` marks a short to the close and `market_value` holds it at
  cost, the reverse of the portfolio's table, so the market values of the positions do not add up to
  that of the portfolio (`position_market_value_differs`).
* C115: `train_size` is documented as lying between 0 and 1, but values above 1 are not refused
  (an example beside `call_accepted_iff`); nor is `bars_per_year` checked to be positive.
