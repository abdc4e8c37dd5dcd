{"id": "C01", "title": "Cash ledger is conserved", "statement": "After any history of portfolio calls, cash plus the collateral posted for the open entries (cost basis divided by leverage when leverage > 1) minus accrued interest debt equals initial cash plus realised PnL minus all fees charged plus all net interest applied. No call creates or destroys money.", "quantifier": "every portfolio configuration, every finite sequence of buy/sell/exit_position/check_stops/capture_bar/incr_bars/remove_stop calls with any symbols, shares, prices, stops, fee and slippage functions", "why_tests_cant": "Any finite history of portfolio operations interleaves fills, marks, interest and stops in unboundedly many ways; tests fix a handful of histories.", "anchors": ["src/pybroker/portfolio.py:Portfolio.buy", "src/pybroker/portfolio.py:Portfolio.sell", "src/pybroker/portfolio.py:Portfolio._release_collateral", "src/pybroker/portfolio.py:Portfolio._post_collateral", "src/pybroker/portfolio.py:Portfolio._apply_interest"]}
{"id": "C02", "title": "Recorded market value is initial cash plus all profit and loss", "statement": "On every captured bar the recorded market value equals initial cash + realised PnL + unrealised PnL of every open long and short entry at its mark - fees + net interest, at every leverage.", "quantifier": "every history, every bar and every set of closes (symbols with no bar included)", "why_tests_cant": "Any finite history of portfolio operations interleaves fills, marks, interest and stops in unboundedly many ways; tests fix a handful of histories.", "anchors": ["src/pybroker/portfolio.py:Portfolio.capture_bar", "src/pybroker/portfolio.py:Portfolio.margin_loan", "src/pybroker/eval.py:EvaluateMixin._calc_eval_metrics"]}
{"id": "C03", "title": "Holdings equal the net of the filled orders", "statement": "For every symbol, long shares minus short shares held always equals the sum of shares of recorded buy orders minus the sum of shares of recorded sell orders for that symbol.", "quantifier": "every history and every symbol", "why_tests_cant": "Any finite history of portfolio operations interleaves fills, marks, interest and stops in unboundedly many ways; tests fix a handful of histories.", "anchors": ["src/pybroker/portfolio.py:Portfolio.orders", "src/pybroker/portfolio.py:Portfolio.buy", "src/pybroker/portfolio.py:Portfolio.sell", "src/pybroker/portfolio.py:Portfolio._trigger_stop"]}
{"id": "C04", "title": "Position aggregates agree with their entries", "statement": "Every open position has at least one entry, every entry holds a positive number of shares at a positive price, the position's shares and entry notional are the sums over its entries, the portfolio's symbols are exactly the symbols with an open position and no symbol has two positions of one side.", "quantifier": "every history", "why_tests_cant": "Any finite history of portfolio operations interleaves fills, marks, interest and stops in unboundedly many ways; tests fix a handful of histories.", "anchors": ["src/pybroker/portfolio.py:Position", "src/pybroker/portfolio.py:Entry", "src/pybroker/portfolio.py:Portfolio._update_position"]}
{"id": "C05", "title": "A symbol is never long and short at once", "statement": "No reachable portfolio holds a long and a short position in one symbol.", "quantifier": "every history", "why_tests_cant": "Any finite history of portfolio operations interleaves fills, marks, interest and stops in unboundedly many ways; tests fix a handful of histories.", "anchors": ["src/pybroker/portfolio.py:Portfolio._cover", "src/pybroker/portfolio.py:Portfolio._sell_existing", "src/pybroker/portfolio.py:Portfolio._long", "src/pybroker/portfolio.py:Portfolio._short"]}
{"id": "C06", "title": "Exits are matched first-in first-out", "statement": "A sell (cover) of n shares closes the open long (short) entries oldest first: entry i gives up min(its shares, what is left of n after all older entries), each entry that gives up shares yields exactly one trade at the fill price, no zero-share trade is booked, and any remainder is what may open the opposite side.", "quantifier": "every position (any number of entries), every share count and fill price", "why_tests_cant": "The number of entries and the split point are unbounded.", "anchors": ["src/pybroker/portfolio.py:Portfolio._sell_existing", "src/pybroker/portfolio.py:Portfolio._cover", "src/pybroker/portfolio.py:Portfolio._exit_long", "src/pybroker/portfolio.py:Portfolio._exit_short"]}
{"id": "C07", "title": "Realised PnL, aggregate PnL and win rate follow from the trade log", "statement": "Portfolio PnL always equals the sum of the recorded trades' PnL, each trade's agg_pnl is the running sum up to and including it, each trade's PnL is shares times the signed price difference, win rate is the fraction of recorded trades with positive PnL and win rate plus loss rate is one once a trade exists.", "quantifier": "every history", "why_tests_cant": "Any finite history of portfolio operations interleaves fills, marks, interest and stops in unboundedly many ways; tests fix a handful of histories.", "anchors": ["src/pybroker/portfolio.py:Portfolio._add_trade", "src/pybroker/portfolio.py:Portfolio.win_rate", "src/pybroker/portfolio.py:Portfolio.loss_rate"]}
{"id": "C08", "title": "Order and trade logs are append-only with consecutive ids", "statement": "Recorded orders and trades are never rewritten: each call only appends, ids run 1,2,3,... in order, every recorded order has positive shares and price, and total fees equal the sum of the orders' fees.", "quantifier": "every history", "why_tests_cant": "Any finite history of portfolio operations interleaves fills, marks, interest and stops in unboundedly many ways; tests fix a handful of histories.", "anchors": ["src/pybroker/portfolio.py:Portfolio._add_order", "src/pybroker/portfolio.py:Portfolio._add_trade"]}
{"id": "C09", "title": "Limit prices are honoured", "statement": "No buy order is ever recorded at a fill price above its limit and no sell below it, including orders produced by stops with a limit price and after slippage.", "quantifier": "every history, every limit, every slippage model", "why_tests_cant": "Any finite history of portfolio operations interleaves fills, marks, interest and stops in unboundedly many ways; tests fix a handful of histories.", "anchors": ["src/pybroker/portfolio.py:Portfolio.buy", "src/pybroker/portfolio.py:Portfolio.sell", "src/pybroker/portfolio.py:Portfolio._trigger_stop"]}
{"id": "C10", "title": "Position caps are never exceeded", "statement": "With max_long_positions (max_short_positions) set, the number of open long (short) positions never exceeds it.", "quantifier": "every history and cap", "why_tests_cant": "Any finite history of portfolio operations interleaves fills, marks, interest and stops in unboundedly many ways; tests fix a handful of histories.", "anchors": ["src/pybroker/portfolio.py:Portfolio._long", "src/pybroker/portfolio.py:Portfolio._short", "src/pybroker/config.py:StrategyConfig"]}
{"id": "C11", "title": "Position mode is enforced", "statement": "Under LONG_ONLY no short position is ever open; under SHORT_ONLY no long position is ever open.", "quantifier": "every history", "why_tests_cant": "Any finite history of portfolio operations interleaves fills, marks, interest and stops in unboundedly many ways; tests fix a handful of histories.", "anchors": ["src/pybroker/portfolio.py:Portfolio._long", "src/pybroker/portfolio.py:Portfolio._short", "src/pybroker/common.py:PositionMode"]}
{"id": "C12", "title": "An order that does not fill changes nothing", "statement": "When buy or sell returns no order (limit not met, zero shares, no buying power, cap or mode), cash, positions, orders, trades, fees, PnL and stops are exactly as before; when it raises for bad input likewise.", "quantifier": "every state and every order", "why_tests_cant": "Every combination of reasons not to fill and every prior state.", "anchors": ["src/pybroker/portfolio.py:Portfolio.buy", "src/pybroker/portfolio.py:Portfolio.sell", "src/pybroker/portfolio.py:Portfolio._verify_input"]}
{"id": "C13", "title": "Fills never exceed the request", "statement": "The recorded order's shares are positive and at most the requested shares; they equal the shares closed plus the shares opened.", "quantifier": "every state and order", "why_tests_cant": "Depends on the state of buying power and entries.", "anchors": ["src/pybroker/portfolio.py:Portfolio.buy", "src/pybroker/portfolio.py:Portfolio.sell", "src/pybroker/portfolio.py:Portfolio._clamp_shares"]}
{"id": "C14", "title": "Leverage cap holds after every opening fill", "statement": "With leverage L > 1 an order that opens exposure leaves gross exposure at mark at most L times live market value, with fees included, whenever fees do not decrease in shares; with leverage 1 an order never spends more than the available cash on opening (fees apart).", "quantifier": "every state, order, fee schedule that is non-decreasing in shares", "why_tests_cant": "Ranges over all portfolios, marks, prices and fee schedules.", "anchors": ["src/pybroker/portfolio.py:Portfolio._clamp_shares", "src/pybroker/portfolio.py:Portfolio._available_buying_power", "src/pybroker/portfolio.py:Portfolio._live_market_value"]}
{"id": "C15", "title": "Margin loan is never negative", "statement": "margin_loan is non-negative in every reachable state, and is zero when leverage is 1 and no interest debt is outstanding.", "quantifier": "every history", "why_tests_cant": "Any finite history of portfolio operations interleaves fills, marks, interest and stops in unboundedly many ways; tests fix a handful of histories.", "anchors": ["src/pybroker/portfolio.py:Portfolio.margin_loan"]}
{"id": "C16", "title": "Interest moves net cash by exactly the per-bar rate", "statement": "Capturing a bar changes the net cash balance by the net balance times rate/100/bars_per_year (charged if negative, credited if positive); sweeping debt out of cash leaves the net balance unchanged and never makes cash or debt negative.", "quantifier": "every state, rate and bars_per_year", "why_tests_cant": "All signs and magnitudes of cash and debt.", "anchors": ["src/pybroker/portfolio.py:Portfolio._apply_interest", "src/pybroker/portfolio.py:Portfolio._sweep_accrued_interest"]}
{"id": "C17", "title": "exit_position flattens the symbol", "statement": "After exit_position(symbol) with valid prices there is no long or short position in the symbol, all its entries have become trades, and other symbols' positions are untouched.", "quantifier": "every state, symbol, prices and slippage model returning positive prices", "why_tests_cant": "Any number of entries and any other positions.", "anchors": ["src/pybroker/portfolio.py:Portfolio.exit_position"]}
{"id": "C18", "title": "Price stops trigger exactly on touch and fill inside the bar", "statement": "A loss, profit or trailing stop without exit_price triggers on a bar iff the bar's range reaches the stop level on the adverse (or favourable) side, and its unslipped fill lies within the bar's low and high, is the stop level when the level lies in the range and otherwise the nearest range end.", "quantifier": "every stop type and side, every level and every bar with low <= high", "why_tests_cant": "All relative positions of level, low and high.", "anchors": ["src/pybroker/portfolio.py:Portfolio._trigger_profit_or_loss_stop", "src/pybroker/portfolio.py:Portfolio._trigger_trailing_stop"]}
{"id": "C19", "title": "Trailing stops only tighten", "statement": "Along any sequence of bars a long trailing stop's level never decreases and a short one's never increases; a bar is tested against the level set by earlier bars only; after bars that do not trigger, the level is the max (min) over the initial level and each bar's high minus (low plus) its trail amount.", "quantifier": "every portfolio history and every continuation of it of any length, whose checked bars have a finite high (long) or low (short) for the stop's symbol", "why_tests_cant": "Unbounded bar sequences.", "anchors": ["src/pybroker/portfolio.py:Portfolio._trigger_trailing_stop"]}
{"id": "C20", "title": "Stops exit an entry at most once and in full", "statement": "One check_stops call exits each entry at most once, in full, books one order and one trade per exited entry, removes the exited entries from their positions, and leaves every other entry's shares unchanged.", "quantifier": "every state with any number of entries and stops, every bar", "why_tests_cant": "Any number of stops may hit on the same bar.", "anchors": ["src/pybroker/portfolio.py:Portfolio.check_stops", "src/pybroker/portfolio.py:Portfolio._trigger_stop"]}
{"id": "C21", "title": "The set of armed stops is exactly the stops of open entries", "statement": "At every point the armed price stops are exactly those attached to entries of open positions: closing an entry by any route disarms its stops, the per-symbol index and the id index agree, and a removed stop is never armed again.", "quantifier": "every history with fresh stop ids", "why_tests_cant": "Any finite history of portfolio operations interleaves fills, marks, interest and stops in unboundedly many ways; tests fix a handful of histories.", "anchors": ["src/pybroker/portfolio.py:Portfolio._add_stops", "src/pybroker/portfolio.py:Portfolio._remove_stop_data", "src/pybroker/portfolio.py:Portfolio.remove_stop", "src/pybroker/portfolio.py:Portfolio.remove_stops"]}
{"id": "C22", "title": "MAE and MFE are the running extremes", "statement": "An entry's recorded MAE is never positive and MFE never negative; over any sequence of bars MAE is the minimum of 0 and all adverse excursions, MFE the maximum of 0 and all favourable ones, and a trade's MAE/MFE also account for the exit price.", "quantifier": "every bar sequence", "why_tests_cant": "Unbounded bar sequences.", "anchors": ["src/pybroker/portfolio.py:_calculate_pnl_mae_mfe", "src/pybroker/portfolio.py:Portfolio._exit_long", "src/pybroker/portfolio.py:Portfolio._exit_short"]}
{"id": "C23", "title": "Bar counting and bar stops", "statement": "An entry's bars is the number of portfolio bars since it was opened, sym_bars the number of its own symbol's bars, sym_bars <= bars, and a BAR stop of n bars fires on a check iff sym_bars >= n.", "quantifier": "every history of bars, with any calendar per symbol", "why_tests_cant": "Unbounded, ragged calendars.", "anchors": ["src/pybroker/portfolio.py:Portfolio.incr_bars", "src/pybroker/portfolio.py:Portfolio._trigger_bar_stop"]}
{"id": "C24", "title": "Fills are valued at cost until the next mark", "statement": "Opening n shares at price p raises the position's marked value by exactly n*p, and after any first-in-first-out sequence of fills since the last mark the unmarked shares are the newest shares of the position and the unmarked notional their cost.", "quantifier": "every position and every sequence of opening and FIFO closing fills between marks", "why_tests_cant": "Unbounded sequences of fills.", "anchors": ["src/pybroker/portfolio.py:Position._marked_value", "src/pybroker/portfolio.py:Position._add_unmarked", "src/pybroker/portfolio.py:Position._clamp_unmarked"]}
{"id": "C25", "title": "Fixed slippage is adverse, proportional and positive", "statement": "FixedSlippageModel never improves a fill, never changes the share count, keeps the price positive and moves it by exactly the configured basis points; a bps of 0 is the identity and invalid bps are rejected.", "quantifier": "all bps, sides, prices and shares", "why_tests_cant": "Universal over the real-valued inputs.", "anchors": ["src/pybroker/slippage.py:FixedSlippageModel"]}
{"id": "C26", "title": "Volatility and volume slippage are adverse, floored and capped", "statement": "On bars whose low does not exceed the high, VolatilitySlippageModel and VolumeSlippageModel never improve a fill, keep the price positive (sell price at least 1% of the fill), never increase the share count, and the volume model never fills more than its share of the bar's volume when volume is known.", "quantifier": "all parameters, ATR and volume values, sides, prices, shares", "why_tests_cant": "Universal over the inputs.", "anchors": ["src/pybroker/slippage.py:VolatilitySlippageModel", "src/pybroker/slippage.py:VolumeSlippageModel"]}
{"id": "C27", "title": "Pending order registry behaves as one map", "statement": "Under any sequence of add, remove, remove_all, contains, orders, attempt and retry calls the registry behaves as a single map from fresh ids to orders: contains is membership, ids are never reused, the per-symbol listing is exactly the orders of that symbol in creation order, and removing one order or one symbol leaves the others.", "quantifier": "every call sequence of any length", "why_tests_cant": "Two indexes must agree under every interleaving.", "anchors": ["src/pybroker/scope.py:PendingOrderScope"]}
{"id": "C28", "title": "Orders execute after the configured delay, never on the signal bar", "statement": "An order signalled on bar i of a symbol with delay d >= 1 is scheduled for the symbol's own bar i+d when it is in the window, otherwise for a strictly later master date, otherwise it is dropped; it can never execute on or before its signal date.", "quantifier": "every calendar (strictly increasing dates), every bar and delay", "why_tests_cant": "All ragged calendars and window ends.", "anchors": ["src/pybroker/strategy.py:BacktestMixin._schedule_order", "src/pybroker/strategy.py:BacktestMixin._next_master_date"]}
{"id": "C29", "title": "Pending orders are attempted at most once per bar and expire on time", "statement": "A market order or a limit order without timeout is attempted on exactly one bar and then removed; a persistent limit order is attempted at most once per bar, is retried on at most timeout further bars of its symbol, and is removed once filled or expired.", "quantifier": "every order, timeout, calendar and fill outcome sequence", "why_tests_cant": "Unbounded retry sequences.", "anchors": ["src/pybroker/strategy.py:BacktestMixin._place_buy_orders", "src/pybroker/strategy.py:BacktestMixin._place_sell_orders", "src/pybroker/strategy.py:BacktestMixin._process_persistent_orders"]}
{"id": "C30", "title": "Pending orders are processed covers first, then sells, then buys", "statement": "Persistent orders are processed in the order cover, sell, buy and by creation id within each, whatever order they were created in.", "quantifier": "every set of pending orders", "why_tests_cant": "All permutations.", "anchors": ["src/pybroker/strategy.py:_pending_order_priority", "src/pybroker/strategy.py:BacktestMixin._process_persistent_orders"]}
{"id": "C31", "title": "Exit orders never open the opposite side", "statement": "An order flagged as an exit of a long (short) position never sells (buys) more than the shares still held when it executes, so it never opens a short (long) position, and it is dropped when nothing is held.", "quantifier": "every state at execution time, every order size", "why_tests_cant": "The position may change in any way between signal and fill.", "anchors": ["src/pybroker/strategy.py:BacktestMixin._attempt_pending_order"]}
{"id": "C32", "title": "Ranking by score is total, stable and dense", "statement": "Ranks are 1..n over the scored symbols, a higher score never gets a worse rank, ties are broken by symbol, symbols without a usable score are excluded, and the result does not depend on input order.", "quantifier": "every map of scores", "why_tests_cant": "All score maps and orders.", "anchors": ["src/pybroker/strategy.py:_rank_by_score", "src/pybroker/strategy.py:_rotation_ranks", "src/pybroker/strategy.py:_is_rankable"]}
{"id": "C33", "title": "Rotation never over-fills its slots", "statement": "The entries chosen by rotation are at most the free slots, are ranked within worst_rank_held, are not held or pending, and any eligible symbol left out is ranked no better than every chosen one.", "quantifier": "every set of holdings, pending orders and scores", "why_tests_cant": "All combinations.", "anchors": ["src/pybroker/strategy.py:_rotation_candidates", "src/pybroker/strategy.py:_rotation_exits", "src/pybroker/strategy.py:_pending_entry_symbols"]}
{"id": "C34", "title": "Rotation never goes long and short on one symbol", "statement": "When a symbol is chosen on both sides the better ranked side wins (long on ties) and the resulting sets are disjoint.", "quantifier": "all candidate lists and ranks", "why_tests_cant": "All combinations.", "anchors": ["src/pybroker/strategy.py:_resolve_rotation_overlap"]}
{"id": "C35", "title": "Buy and sell scores order execution", "statement": "Orders of one bar are executed in non-increasing score order (covers and buys by buy score, sells by sell score), a NaN score last and a missing score as zero, and the ordering is a permutation that keeps ties in signal order.", "quantifier": "every list of results", "why_tests_cant": "All lists.", "anchors": ["src/pybroker/strategy.py:_sort_by_buy_score", "src/pybroker/strategy.py:_sort_by_sell_score"]}
{"id": "C36", "title": "Train data always precedes test data by the lookahead", "statement": "In every walk-forward window the last training date is exactly lookahead bars before the first test date (at least one bar), so no training date is a test date or later.", "quantifier": "all numbers of dates, windows, train sizes strictly between 0 and 1 and lookaheads", "why_tests_cant": "Integer truncation makes every combination different.", "anchors": ["src/pybroker/strategy.py:WalkforwardMixin.walkforward_split"]}
{"id": "C37", "title": "Test windows are consecutive, disjoint and end at the last date", "statement": "Multi-window walk-forward test windows are pairwise disjoint, contiguous in date order, equally long and the last one ends on the last date.", "quantifier": "all numbers of dates, windows >= 2, train sizes in (0,1), lookaheads", "why_tests_cant": "Integer truncation makes every combination different.", "anchors": ["src/pybroker/strategy.py:WalkforwardMixin.walkforward_split"]}
{"id": "C38", "title": "The window split is in range and terminates", "statement": "For every accepted combination of arguments the split's loop terminates and every index it uses lies within the dates; otherwise a ValueError is raised, never an index error.", "quantifier": "all numbers of dates, windows, train sizes, lookaheads", "why_tests_cant": "Loop termination and index bounds are universal claims.", "anchors": ["src/pybroker/strategy.py:WalkforwardMixin.walkforward_split"]}
{"id": "C39", "title": "train_size 0 and 1 partition the dates", "statement": "With train_size 0 (1) the test (train) windows are disjoint equal-length runs that cover the most recent windows*floor(n/windows) dates.", "quantifier": "all numbers of dates and windows", "why_tests_cant": "All sizes.", "anchors": ["src/pybroker/strategy.py:WalkforwardMixin.walkforward_split"]}
{"id": "C40", "title": "Strategies never see the future", "statement": "What an execution can read on a bar (columns, indicators, model input, predictions and interval bars fetched with the current end index) is unchanged when any later bars of the data are altered, added or removed.", "quantifier": "all data, all bars", "why_tests_cant": "Universal over data and bars.", "anchors": ["src/pybroker/scope.py:ColumnScope", "src/pybroker/scope.py:IndicatorScope", "src/pybroker/scope.py:IntervalScope", "src/pybroker/scope.py:PredictionScope"]}
{"id": "C41", "title": "Single value reads equal the last of the array read", "statement": "fetch_value at an end index equals the last element of fetch at that index, clamps past the end, and raises for a non-positive index.", "quantifier": "all arrays and indexes", "why_tests_cant": "All arrays.", "anchors": ["src/pybroker/scope.py:ColumnScope.fetch_value", "src/pybroker/scope.py:IndicatorScope.fetch_value"]}
{"id": "C42", "title": "Per-bar predictions are an append-only prefix view", "statement": "A sequence of per-bar predictions returns after each append exactly all values appended so far in order, whatever the buffer growth, and earlier returned views keep their contents.", "quantifier": "every append sequence of any length", "why_tests_cant": "Unbounded growth.", "anchors": ["src/pybroker/scope.py:_PerBarPredictions"]}
{"id": "C43", "title": "Date alignment is an exact join", "statement": "Aligning dates against a sorted index returns exactly the positions whose dates match, keeping order, and indicator values aligned to dates are the value of the equal date or NaN.", "quantifier": "all sorted date arrays", "why_tests_cant": "All arrays.", "anchors": ["src/pybroker/scope.py:_sorted_dates_indices_njit", "src/pybroker/model.py:_indicator_values_for_dates"]}
{"id": "C44", "title": "Fill prices are derived from the bar", "statement": "MIDDLE and AVERAGE fill prices lie between the bar's low and high before rounding, and cent rounding moves a price by at most half a cent, is idempotent and monotone.", "quantifier": "all bars and prices", "why_tests_cant": "Universal over prices.", "anchors": ["src/pybroker/scope.py:PriceScope", "src/pybroker/common.py:quantize"]}
{"id": "C45", "title": "Compressed bars partition the base bars", "statement": "Compressing to an interval puts every base bar in exactly one compressed bar, in order, and consecutive base bars share a compressed bar iff they have the same bin.", "quantifier": "all date sequences and intervals", "why_tests_cant": "All lengths.", "anchors": ["src/pybroker/interval.py:_find_bin_starts_ends", "src/pybroker/interval.py:_compress_every_n_bars"]}
{"id": "C46", "title": "Compressed OHLCV is the aggregate of its base bars", "statement": "A compressed bar's open is the first open, close the last close, high the maximum and low the minimum of its base bars' known values, volume the sum and date the last date.", "quantifier": "all bars and bins", "why_tests_cant": "All lengths.", "anchors": ["src/pybroker/interval.py:_aggregate_bins", "src/pybroker/interval.py:_compress_every_n_bars"]}
{"id": "C47", "title": "A compressed bar is visible only once complete", "statement": "On base bar t the most recent visible compressed bar aggregates base bars up to t only, the visible index never decreases, a still-forming bar is never visible, and every complete bar is visible from its last base bar on.", "quantifier": "all bin structures and bars", "why_tests_cant": "All lengths.", "anchors": ["src/pybroker/interval.py:_compute_completed", "src/pybroker/interval.py:_compress_every_n_bars", "src/pybroker/scope.py:IntervalScope.completed_index"]}
{"id": "C48", "title": "Interval names round-trip and normalise", "statement": "Parsing the stored name of an interval-bound indicator or model gives back the base name and interval; normalising an interval twice is the same as once; duplicate intervals after normalisation are rejected.", "quantifier": "all names without the separator and all valid intervals", "why_tests_cant": "All strings.", "anchors": ["src/pybroker/interval.py:indicator_interval_name", "src/pybroker/interval.py:parse_indicator_interval_name", "src/pybroker/interval.py:normalize_interval", "src/pybroker/interval.py:normalize_intervals"]}
{"id": "C49", "title": "Rolling low and high are the window extremes", "statement": "lowv/highv return for each index with a full window the minimum/maximum of the last n values and NaN before.", "quantifier": "all arrays and window lengths >= 1", "why_tests_cant": "Deque algorithm over unbounded arrays.", "anchors": ["src/pybroker/vect.py:_rolling_min_njit", "src/pybroker/vect.py:_rolling_max_njit", "src/pybroker/vect.py:lowv", "src/pybroker/vect.py:highv"]}
{"id": "C50", "title": "Rolling sum is the window sum", "statement": "sumv returns for each index with a full window the sum of the last n values (NaN if one of them is NaN) and NaN before; a NaN never contaminates windows that do not contain it.", "quantifier": "all arrays and window lengths", "why_tests_cant": "Incremental algorithm over unbounded arrays.", "anchors": ["src/pybroker/vect.py:_rolling_sum_njit", "src/pybroker/vect.py:sumv"]}
{"id": "C51", "title": "cross and returnv meet their definitions", "statement": "cross(a,b) is 1 at a bar iff a > b there and not on the previous bar; returnv is the n-bar relative change, NaN during warm-up or with a zero base.", "quantifier": "all arrays", "why_tests_cant": "All arrays.", "anchors": ["src/pybroker/vect.py:cross", "src/pybroker/vect.py:returnv"]}
{"id": "C52", "title": "Bounded indicators stay in range", "statement": "Aroon up/down lie in [0,100] and their difference in [-100,100]; stochastic in [-50,50] (when low <= close <= high); Laguerre RSI in [0,100]; ADX in [0,100].", "quantifier": "all price arrays of any length", "why_tests_cant": "Recursive filters over unbounded arrays.", "anchors": ["src/pybroker/vect.py:aroon_up", "src/pybroker/vect.py:aroon_down", "src/pybroker/vect.py:aroon_diff", "src/pybroker/vect.py:stochastic", "src/pybroker/vect.py:laguerre_rsi", "src/pybroker/vect.py:adx"]}
{"id": "C53", "title": "Indicators are causal", "statement": "An indicator's value at bar t depends on bars up to t only: truncating or changing later bars does not change it.", "quantifier": "all arrays and bars", "why_tests_cant": "All arrays.", "anchors": ["src/pybroker/vect.py:lowv", "src/pybroker/vect.py:highv", "src/pybroker/vect.py:sumv", "src/pybroker/vect.py:returnv", "src/pybroker/vect.py:cross", "src/pybroker/vect.py:aroon_up", "src/pybroker/vect.py:stochastic", "src/pybroker/vect.py:laguerre_rsi", "src/pybroker/vect.py:macd"]}
{"id": "C54", "title": "Maximum drawdown is the worst peak-to-trough loss", "statement": "max_drawdown equals minus the largest drop of cumulative change from any earlier peak (start included), and max_drawdown_percent the most negative relative drop from a running peak, with the index of its first occurrence.", "quantifier": "all arrays of changes/returns", "why_tests_cant": "All arrays.", "anchors": ["src/pybroker/eval.py:max_drawdown", "src/pybroker/eval.py:max_drawdown_percent"]}
{"id": "C55", "title": "Trade statistics agree with the trade list", "statement": "The one-pass statistics equal their definitions: counts of winners and losers, sums, averages, largest win/loss with the data of that trade, longest winning and losing streak; win rate plus loss rate is 100 when a non-zero trade exists.", "quantifier": "all trade lists", "why_tests_cant": "All lists.", "anchors": ["src/pybroker/eval.py:_trade_stats", "src/pybroker/eval.py:win_loss_rate", "src/pybroker/eval.py:max_wins_losses", "src/pybroker/eval.py:winning_losing_trades"]}
{"id": "C56", "title": "Metric identities", "statement": "total_pnl + unrealized_pnl equals end minus initial market value plus fees; total_profit + total_loss equals total_pnl; bar changes sum to the change of market value; profit factor is positive when any bar changed and above 1 iff gains exceed losses; total_return_pct is total_pnl as a percentage of the initial market value.", "quantifier": "all market value series and trade lists", "why_tests_cant": "All lists.", "anchors": ["src/pybroker/eval.py:EvaluateMixin._calc_eval_metrics", "src/pybroker/eval.py:_bar_returns_and_changes", "src/pybroker/eval.py:profit_factor"]}
{"id": "C57", "title": "Bootstrap bounds are in range and ordered", "statement": "Bootstrap drawdown bounds and BCa interval ends are values of bootstrap replicates (indexes in range for every sample size), drawdown bounds get no deeper from 99.9% to 90% and each lies between the worst replicate and zero; the bias correction never asks for the normal quantile of 0 or 1.", "quantifier": "all sample sizes, replicates and quantile arguments", "why_tests_cant": "Index arithmetic over all sizes.", "anchors": ["src/pybroker/eval.py:_dd_conf", "src/pybroker/eval.py:_dd_confs", "src/pybroker/eval.py:_bca_clamp", "src/pybroker/eval.py:_bca_intervals_from_boot"]}
{"id": "C58", "title": "Jackknife shortcut equals leave-one-out", "statement": "The fast jackknife used for profit factor returns for each i the profit factor formula of the sample without element i, and the generic one evaluates the statistic on that sample in the original order.", "quantifier": "all samples", "why_tests_cant": "All arrays.", "anchors": ["src/pybroker/eval.py:_jackknife_profit_factor", "src/pybroker/eval.py:_bca_boot_conf_generic"]}
{"id": "C59", "title": "The in-memory cache layer never changes what is read", "statement": "Under any single-process sequence of get, set, delete, pop, del and clear with dataclass keys (the keys the library uses; reads may also use the older string form) and stored values other than None, the layered cache returns what the disk cache alone (with its legacy-key fallback) would return, for every capacity; when the disk cache drops entries by itself, a read still answers nothing or what was last stored under the key or its older form; the in-process layer never exceeds its capacity.", "quantifier": "every call sequence and every L1 capacity", "why_tests_cant": "LRU eviction and two key forms under all interleavings.", "anchors": ["src/pybroker/cache.py:_L1Cache"]}
{"id": "C60", "title": "Cached queries return what an uncached query returns", "statement": "Querying with the data source cache enabled returns the same rows as without it, for every history of earlier queries of the same deterministic source, and re-fetching after a schema change terminates.", "quantifier": "every query history", "why_tests_cant": "All query histories.", "anchors": ["src/pybroker/data.py:DataSource.query", "src/pybroker/data.py:DataSourceCacheMixin"]}
{"id": "C61", "title": "Cache keys separate what must not be shared", "statement": "Two requests share cached data only if symbol, timeframe, dates, adjustment and data source (including its settings) agree; pooled model keys do not depend on symbol order. Two runs share a cached indicator or model only if its definition, symbol, timeframe, dates, filters and data agree.", "quantifier": "all pairs of requests", "why_tests_cant": "All pairs.", "anchors": ["src/pybroker/cache.py:DataSourceCacheKey", "src/pybroker/cache.py:ModelCacheKey", "src/pybroker/data.py:DataSourceCacheMixin.get_cached"]}
{"id": "C62", "title": "Timeframe strings parse to the right number of seconds", "statement": "A well-formed timeframe string is split into its parts, each accepted unit at most once, formatting and re-parsing is the identity, and to_seconds is the sum of amount times unit length.", "quantifier": "all strings", "why_tests_cant": "All strings.", "anchors": ["src/pybroker/common.py:parse_timeframe", "src/pybroker/common.py:to_seconds", "src/pybroker/data.py:DataSource._format_timeframe"]}
{"id": "C63", "title": "JSON conversion is total and always yields JSON values", "statement": "Converting any nested result value never fails and yields only JSON values, with keys json.dumps accepts and never NaN or infinity; missing values become null, sequences keep their order, and converting twice is converting once.", "quantifier": "all nested values of any depth", "why_tests_cant": "Unbounded nesting.", "anchors": ["src/pybroker/common.py:_json_safe", "src/pybroker/common.py:_json_safe_key"]}
{"id": "C64", "title": "Execution symbols never overlap", "statement": "However executions are added and whatever symbol selectors return, the executions of a window have pairwise disjoint symbols, each the ones it declared or selected, or an error is raised.", "quantifier": "all sequences of calls that set up a strategy and all selectors", "why_tests_cant": "All lists.", "anchors": ["src/pybroker/common.py:_resolve_executions", "src/pybroker/strategy.py:Strategy.add_execution"]}
{"id": "C65", "title": "Target sizing never exceeds the target", "statement": "calc_target_shares raises exactly when the price is not a positive number; otherwise it returns a non-negative share count whose cost at the price is at most the target fraction of the capital, and one more share would cost more (exact when shares are fractional). set_target_shares, on a bar without other orders, orders on one side exactly the difference between that count and the shares held on that side, and marks the order as an exit or cover exactly when it closes the position or reduces a short.", "quantifier": "all prices, targets, cash/equity and holdings", "why_tests_cant": "Universal over inputs.", "anchors": ["src/pybroker/context.py:ExecContext.calc_target_shares", "src/pybroker/context.py:ExecContext.set_target_shares"]}
{"id": "C66", "title": "An execution result has one side and valid parameters", "statement": "to_result raises exactly when the bar's settings are missing, contradictory or not finite; it yields nothing exactly when no non-zero number of shares is set; otherwise its result has one side, carries the settings of that side unchanged, and has exactly the stops that were asked for, for the side the order opens, with fresh increasing ids.", "quantifier": "all context settings", "why_tests_cant": "All combinations of settings.", "anchors": ["src/pybroker/context.py:ExecContext.to_result", "src/pybroker/context.py:ExecContext._get_stops"]}
{"id": "C67", "title": "Hyperparameter lattices are exact", "statement": "A hyperparameter is accepted exactly when its numbers are all ints or all floats, the step is positive and high is low plus a number of steps. Its candidates are then the decimals low, low+step, ..., high exactly: their number is len(), all lie within bounds, first is low, last is high, strictly increasing. Iterating gives each once in this order, ints as ints and floats converted from the decimal. The grid of the hyperparameters that are not fixed has grid_size() points, one for every choice of candidates.", "quantifier": "all valid hyperparameters", "why_tests_cant": "All bounds and steps.", "anchors": ["src/pybroker/optimize.py:Hyperparam", "src/pybroker/optimize.py:SearchSpace.grid_size"]}
{"id": "C68", "title": "Lag features look only backwards", "statement": "In the lag features of a row, place k of a column's block is the value of the column k bars earlier in the symbol's history (NaN when there is none), and no later bar has a part in it. The features exist exactly when the rows are a run of the history and the columns cover it. A deeper request serves shallower ones with identical values, in any order of requests.", "quantifier": "all series, lags, offsets", "why_tests_cant": "All arrays.", "anchors": ["src/pybroker/model.py:_build_stacked_lags_njit", "src/pybroker/model.py:build_lag_feature_matrix", "src/pybroker/model.py:_store_stacked_lags_in_cache"]}
{"id": "C69", "title": "Warm-up trimming removes exactly each symbol's leading undefined rows", "statement": "drop_lag_warmup keeps, in every array and in order, exactly the rows from the first fully defined row of their symbol on, and raises exactly when there are rows and none is fully defined; lag_warmup_len counts the leading rows that are not. With columns that have values from bar n on, training on lags drops exactly the first n + lags bars of a symbol.", "quantifier": "all inputs", "why_tests_cant": "All block structures.", "anchors": ["src/pybroker/model.py:ModelInput.drop_lag_warmup", "src/pybroker/model.py:ModelInput._lag_warmup_keep_mask"]}
{"id": "C70", "title": "Dropped symbols are liquidated at the window boundary", "statement": "When symbols leave the selection at the start of a window all their pending orders are cancelled and all their positions are exited, on the symbol's first bar of the window or else its last bar before the window, never on a later bar; nothing of the other symbols changes.", "quantifier": "every backtest so far, every selection and all data of the next window", "why_tests_cant": "All histories.", "anchors": ["src/pybroker/strategy.py:Strategy._liquidate_dropped_symbols"]}
{"id": "C71", "title": "Active symbols per date are exact", "statement": "On each date exactly the symbols with a bar on that date are active, also when the shared-calendar shortcut is taken.", "quantifier": "all calendars", "why_tests_cant": "All calendars.", "anchors": ["src/pybroker/strategy.py:_date_to_active_syms"]}
{"id": "C72", "title": "A backtest is a history of portfolio calls, bar by bar", "statement": "Whatever user code does, a backtest changes its portfolio only through public calls, and on every bar in the same order: stops are checked, orders created on an earlier bar, of symbols with a bar on the date, are placed with that bar's date, the bar is captured, stops are cancelled, forced exits close positions, bar counts advance. So every property of portfolio histories holds of every backtest.", "quantifier": "every run over any number of windows and bars, any signals, cancellations and forced exits", "why_tests_cant": "The set of runs is unbounded; a test fixes one strategy and one data set.", "anchors": ["src/pybroker/strategy.py:BacktestMixin.backtest_executions"]}
{"id": "C73", "title": "The fields of a recorded bar agree with each other and with the portfolio", "statement": "On every captured bar, market value exceeds equity by the unrealised PnL of the open shorts, which is what unrealized_pnl reports; equity is initial cash plus realised PnL, minus fees, plus interest, plus the unrealised PnL of the longs; notional is longs at mark plus margin, and margin is the shorts at their closes on a bar where every open short has one.", "quantifier": "every history, bar and set of closes", "why_tests_cant": "Any finite history of portfolio operations interleaves fills, marks, interest and stops in unboundedly many ways; tests fix a handful of histories.", "anchors": ["src/pybroker/portfolio.py:PortfolioBar", "src/pybroker/portfolio.py:Portfolio.capture_bar"]}
{"id": "C74", "title": "Rotation never allocates more than the whole capital to new entries", "statement": "The target sizes given to the symbols rotation enters on a bar add up to at most 1, and the positions that stay, the entries under way and the new entries of a side fit its limit.", "quantifier": "all active symbols, scores, positions, pending orders, limits and bands", "why_tests_cant": "Symbols, scores and pending orders vary without bound.", "anchors": ["src/pybroker/strategy.py:_apply_worst_rank_held", "src/pybroker/strategy.py:_rotation_candidates"]}
{"id": "C75", "title": "Prices read on a bar are the current bar's", "statement": "However often and in whatever order prices, bar dates and close/low/high are read during a run, each read answers for the symbol's current bar: memoised answers are never carried over from an earlier bar.", "quantifier": "all runs of bars, all sets of symbols with a bar on each, all reads on each bar", "why_tests_cant": "A stale memo shows only for particular orders of reads across bars with ragged calendars; tests read few prices in one order.", "anchors": ["src/pybroker/scope.py: PriceScope.reset_bar, _fetch_price_type, has_bar_on, fetch_bar_ohlc", "src/pybroker/strategy.py: backtest_executions bar loop"]}
{"id": "C76", "title": "Compressed VWAP stays within its base bars' VWAPs", "statement": "When the base bars of a compressed bar have known VWAPs between lo and hi and known non-negative volumes, the compressed VWAP is known and between lo and hi, also when the total volume is zero.", "quantifier": "all groups of base bars and bounds", "why_tests_cant": "All prices and volumes.", "anchors": ["src/pybroker/interval.py:_aggregate_vwap"]}
{"id": "C77", "title": "Documented indicator ranges hold", "statement": "The indicators documented to range over [-50, 50] (trends, deviations, close_minus_ma, price_intensity, price_change_oscillator, reactivity, price_volume_fit, volume_weighted_ma_ratio, normalized_on_balance_volume, normalized volume indexes, volume_momentum, macd, delta_on_balance_volume) only produce values in that range; normal_cdf is in [0, 1] and symmetric.", "quantifier": "all price and volume arrays, lookbacks, scales and smoothings", "why_tests_cant": "Real-valued inputs of any length; a test samples a few series.", "anchors": ["src/pybroker/vect.py:normal_cdf", "src/pybroker/vect.py:macd", "src/pybroker/vect.py:linear_trend", "src/pybroker/vect.py:linear_deviation", "src/pybroker/vect.py:delta_on_balance_volume"]}
{"id": "C78", "title": "ATR is the mean of the last true ranges", "statement": "The ATR of a bar is the mean, over the last lookback bars, of the largest of high-low, |high - previous close| and |low - previous close|; the first lookback bars are NaN.", "quantifier": "all arrays with low at most high, all lookbacks", "why_tests_cant": "All arrays and lookbacks.", "anchors": ["src/pybroker/vect.py:_atr", "src/pybroker/vect.py:atr"]}
{"id": "C79", "title": "Money flow stays within [-100, 100]", "statement": "money_flow lies in [-100, 100] when every close is between its low and high and volumes are not negative, with and without a zero total volume.", "quantifier": "all such arrays and lookbacks", "why_tests_cant": "All arrays and lookbacks.", "anchors": ["src/pybroker/vect.py:money_flow", "src/pybroker/vect.py:_flow"]}
{"id": "C80", "title": "Reported drawdown is that of the market values", "statement": "The max_drawdown of a result is the largest fall of its recorded market value from a bar to a later one; when market values are positive, max_drawdown_pct is the largest relative fall from a bar to a later one, and the reported date is that of the first bar reaching it.", "quantifier": "all market value series", "why_tests_cant": "All series.", "anchors": ["src/pybroker/eval.py:_bar_returns_and_changes", "src/pybroker/eval.py:max_drawdown_percent", "src/pybroker/eval.py:EvaluateMixin.evaluate"]}
{"id": "C81", "title": "Scores stay in their ranges", "statement": "relative_entropy is in [0, 1]; iqr is not negative and at most the spread; r_squared is in [0, 1] and comes from the line with the least squared residuals; ulcer_index of positive values is zero exactly when they never fall; the BCa acceleration is at most 1/6 in size.", "quantifier": "all arrays", "why_tests_cant": "All arrays.", "anchors": ["src/pybroker/eval.py:relative_entropy", "src/pybroker/eval.py:iqr", "src/pybroker/eval.py:r_squared", "src/pybroker/eval.py:ulcer_index"]}
{"id": "C82", "title": "Infinite scores only for flawless curves", "statement": "sortino_ratio is infinite exactly when no return is negative and one is positive; calmar_ratio exactly when the compounded curve never falls and ends above its start; upi exactly when the ulcer index is zero and the values never fall and end above their start.", "quantifier": "all arrays", "why_tests_cant": "All arrays.", "anchors": ["src/pybroker/eval.py:sortino_ratio", "src/pybroker/eval.py:calmar_ratio", "src/pybroker/eval.py:upi"]}
{"id": "C83", "title": "A bar's orders run in a fixed sequence", "statement": "On every bar the stops are checked first, then the scheduled covers, then the scheduled sells, then the scheduled buys are placed one after the other, and orders waiting from earlier bars come last.", "quantifier": "every bar, schedule and portfolio", "why_tests_cant": "All combinations of schedules and portfolio states.", "anchors": ["src/pybroker/strategy.py:BacktestMixin.backtest_executions", "src/pybroker/strategy.py:BacktestMixin._place_buy_orders", "src/pybroker/strategy.py:BacktestMixin._place_sell_orders"]}
{"id": "C84", "title": "A run uses the declared hyperparameters", "statement": "The hyperparameters of a run are exactly the declared ones, each with the value it is overridden with or else its default; an override of a name that is not declared is rejected. In the arguments of an indicator every hyperparameter is replaced by the run's value and all other arguments stay.", "quantifier": "all declarations, overrides and arguments", "why_tests_cant": "All combinations of declarations and overrides.", "anchors": ["src/pybroker/optimize.py:build_run_hyperparams", "src/pybroker/optimize.py:_resolve_hyperparams"]}
{"id": "C85", "title": "Parallel trials match sequential trials", "statement": "A grid search with several workers that is split into any number of runs over the same study records the points of the grid from the first on, each once and with its own score, until all are done. A random search records the same points and scores in the same order for every number of workers, and ends.", "quantifier": "all grids, scores, splits into runs, worker counts", "why_tests_cant": "All splits and worker counts.", "anchors": ["src/pybroker/optimize.py:_run_study", "src/pybroker/optimize.py:_resolve_n_trials"]}
{"id": "C86", "title": "Order settings do not carry over between bars", "statement": "At the start of a bar every order setting of a context (shares, limits, timeouts, fill prices, scores, stops, exit and cover flags) is cleared, so what a bar orders depends only on the settings made on that bar.", "quantifier": "all settings left by the previous bar", "why_tests_cant": "Every combination of settings left behind.", "anchors": ["src/pybroker/context.py:set_exec_ctx_data", "src/pybroker/context.py:ExecContext"]}
{"id": "C87", "title": "Rotation replaces an execution's orders", "statement": "In rotation mode the shares, limits and timeouts an execution sets are ignored: a held symbol outside the rotation is closed entirely, an entry is sized by the rotation's target, and a symbol rotation leaves alone gives no order, whatever the execution set.", "quantifier": "all settings of the execution, all holdings and decisions of the rotation", "why_tests_cant": "Every combination of settings and decisions.", "anchors": ["src/pybroker/strategy.py:_reset_rotation_orders", "src/pybroker/strategy.py:_clear_unused_rotation_signals"]}
{"id": "C88", "title": "A model is trained on the bars of its training window", "statement": "In every walk-forward window the training input of a model of a symbol is exactly the symbol's bars of the window's training bar numbers, which end lookahead - 1 bars before the window's first test bar, in date order, each with its own data and the indicators' values on its date; the test input is exactly its test bars. A model on a longer interval holds out lookahead bars of that interval. Lags of training rows stay inside the training window; lags of test rows reach back over the gap. Shuffling the training rows changes none of this data.", "quantifier": "all data frames, splits, look-aheads, symbols, indicators and lags", "why_tests_cant": "Ranges over all frames with gaps, all window counts and all row orders.", "anchors": ["src/pybroker/strategy.py:Strategy._build_window_stores", "src/pybroker/model.py:_symbol_model_input_from_store", "src/pybroker/model.py:apply_lags_to_model_input", "src/pybroker/interval.py:lookahead_train_dates"]}
{"id": "C89", "title": "A run's indicators are computed from its own bars and arguments", "statement": "A run answers with exactly the requested pairs of indicator and symbol, each with the indicator's function applied to that symbol's bars (of the interval in its name, if any) with every hyperparameter replaced by the run's value or, without values, by its default; one value per date. It fails exactly when some pair has no such series.", "quantifier": "all registered indicators, data, hyperparameters, requests and histories of earlier runs", "why_tests_cant": "The answer goes through two caches whose content depends on all earlier runs.", "anchors": ["src/pybroker/indicator.py:IndicatorsMixin.compute_indicators", "src/pybroker/indicator.py:Indicator.__call__", "src/pybroker/indicator.py:_indicator_args"]}
{"id": "C90", "title": "Trials and cached runs do not leak into each other", "statement": "On fixed data and fixed indicators, what earlier runs and optimisation trials computed, cached or kept never changes the answer of a run; the series kept between trials never number more than the limit, and none remain after the optimisation.", "quantifier": "all sequences of runs, optimisations, trials, cleared and dropped cache entries", "why_tests_cant": "Ranges over all histories of two caches with eviction.", "anchors": ["src/pybroker/indicator.py:IndicatorsMixin._memo_key", "src/pybroker/indicator.py:IndicatorsMixin._set_memoized_indicator", "src/pybroker/indicator.py:IndicatorsMixin._get_cached_indicators", "src/pybroker/cache.py:IndicatorCacheKey"]}
{"id": "C91", "title": "An indicator set returns its input's rows with their indicators", "statement": "The frame an indicator set computes has one row per row of the input, sorted by symbol and date, and the rows of each symbol hold for every indicator of the set that indicator's series on that symbol. It fails exactly when the set is empty or some indicator has no series on some symbol.", "quantifier": "all frames in any row order, all sets of indicators", "why_tests_cant": "All frames, symbols of different lengths, any row order.", "anchors": ["src/pybroker/indicator.py:IndicatorSet.__call__"]}
{"id": "C92", "title": "Each window's models are trained on that window", "statement": "In every walk-forward window, whatever earlier windows, runs and trials left in the model cache, each execution gets exactly the models it named for each of its symbols that has training data. A pooled model is the one trained on all of that execution's symbols with training data in this window; any other is trained (or loaded) for the symbol alone; models with tuned indicators use this run's values. Training fails exactly when one of these trainings does.", "quantifier": "all sets of executions and registered models, all symbols with training data, all histories of training calls and dropped cache entries on fixed data", "why_tests_cant": "Ranges over all histories of a cache shared by windows, runs and trials.", "anchors": ["src/pybroker/model.py:ModelsMixin.train_models", "src/pybroker/model.py:ModelsMixin._get_cached_models", "src/pybroker/model.py:ModelsMixin._load_pooled_group_cache", "src/pybroker/model.py:ModelsMixin._set_cached_model", "src/pybroker/strategy.py:Strategy._run_walkforward", "src/pybroker/cache.py:ModelCacheKey"]}
{"id": "C93", "title": "A pooled model is trained on its symbols' bars of the window", "statement": "A pooled model of a set of symbols is trained, in every walk-forward window, on exactly the bars each symbol has in the training window, symbol after symbol and each in date order, every row with its own symbol's columns and indicators. With lags, each symbol loses exactly its own warm-up and the lagged bars; no lag of one symbol's row comes from another symbol or from outside the training window; test rows reach back only into the same symbol's history. It raises when no training row is left.", "quantifier": "all data frames with unique bars, all accepted splits, all sets of symbols and orders in which they are iterated, all columns and numbers of lags, all earlier uses of the lag cache on the same series", "why_tests_cant": "Ranges over all interleavings of symbols' dates, all orders of a set and all cache histories.", "anchors": ["src/pybroker/model.py:_pooled_model_input_from_store", "src/pybroker/model.py:apply_lags_to_model_input_pooled", "src/pybroker/model.py:merge_lag_series_cache_from_store", "src/pybroker/model.py:ModelsMixin._prepare_pooled_data"]}
{"id": "C94", "title": "A model predicts from the same features it was trained on, and only from the past", "statement": "During a backtest, the input a trained model is given for a symbol on a bar consists of one row for each of the symbol's bars of the test window up to that bar; its columns are the model's training columns in the same order, holding each bar's own date, prices and indicator values; its lag features are the values of the training-time lag columns on that bar and on each of the lagged bars of the same symbol before it, reaching back into the window's training data when needed. It does not depend on later bars, nor on which models, symbols or bars were read before.", "quantifier": "all data frames with unique bars, all walk-forward windows, all models with declared columns or indicators and any number of lags, all sequences of earlier reads, all bars", "why_tests_cant": "Ranges over all data, all windows and all orders in which the lazily filled caches can be filled.", "anchors": ["src/pybroker/scope.py:ModelInputScope", "src/pybroker/scope.py:_resolve_lag_cols", "src/pybroker/model.py:apply_lags_to_model_input", "src/pybroker/strategy.py:Strategy._build_window_stores"]}
{"id": "C95", "title": "A run's bars are exactly the source's rows in its range, days and times", "statement": "The bars a backtest or walkforward call runs on are exactly the rows of the data source that belong to a symbol of some execution (any symbol when one of them selects its symbols), are dated in the call's range, ends included, fall on one of the requested weekdays, and have a time of day in the requested range, which may pass midnight; no row is lost, added or repeated, and their order is kept. A call whose dates leave the strategy's range or are reversed, whose source has no rows for it, whose bars contain a symbol and date twice, or which names an unknown day raises; every other call is accepted.", "quantifier": "all data frames and data sources, all sets of executions, all strategy ranges and all date, day and time arguments", "why_tests_cant": "Tests fix one frame and a few dates; the claim is about every row of every frame, at every boundary of the range, week and day.", "anchors": ["src/pybroker/strategy.py:_between", "src/pybroker/strategy.py:Strategy._fetch_data", "src/pybroker/strategy.py:Strategy._reject_duplicate_bars", "src/pybroker/strategy.py:Strategy._to_day_ids", "src/pybroker/strategy.py:Strategy._filter_dates", "src/pybroker/strategy.py:Strategy.walkforward"]}
{"id": "C96", "title": "A run leaves the caller's data frame as it was", "statement": "Running a strategy does not change the data frame the caller passed as its data source, so that running it again, or using the frame elsewhere, sees the same rows and the same date column.", "quantifier": "all data frames, with and without time zone, all executions and all date, day and time arguments", "why_tests_cant": "The damage depends on the combination of time zone, row index, range and kind of execution, and shows only in the caller's object, which tests of the result do not look at.", "anchors": ["src/pybroker/strategy.py:_between", "src/pybroker/strategy.py:Strategy._fetch_data", "src/pybroker/strategy.py:Strategy._filter_dates"]}
{"id": "C97", "title": "An execution has a turn exactly on the bars of its symbols", "statement": "In a backtest or walkforward run, executions have a turn for a symbol exactly on the bars the symbol has in the test data of a window that trades it, except the first warmup bars of each window: one turn per bar, none on a date without a bar of the symbol, and turns come in order of window, date and symbol.", "quantifier": "all data frames with unique bars, all window counts, training sizes and lookaheads, all executions and symbol selectors, all user code", "why_tests_cant": "Ranges over all data with arbitrary gaps, all splits and all user code.", "anchors": ["src/pybroker/strategy.py:BacktestMixin.backtest_executions", "src/pybroker/strategy.py:Strategy._run_walkforward"]}
{"id": "C98", "title": "A run that exits on the last bar ends without positions", "statement": "When exit_on_last_bar is set, a run ends without open long or short positions, whatever the executions ordered.", "quantifier": "all data, splits, executions, selectors, delays, warm-ups and user code for which the run ends without an error", "why_tests_cant": "A position may be opened at any time by any order, pending order or stop, its symbol may end early or stop being selected; the claim is about every such history.", "anchors": ["src/pybroker/strategy.py:BacktestMixin.backtest_executions", "src/pybroker/strategy.py:Strategy._run_walkforward", "src/pybroker/strategy.py:Strategy._build_exit_dates", "src/pybroker/strategy.py:BacktestMixin._exit_position"]}
{"id": "C99", "title": "Orders of a run follow their signal and are placed in play", "statement": "In every run, an order is attempted only on a later bar than the one that signalled it, not before its execution date, and only on dates on which a window trades its symbol and has a bar of it; attempts of one order are on increasing dates, all but the last unfilled, and an order with timeout t is attempted at most t + 1 times. The portfolio is the result of a history of public calls whose orders are all of this kind.", "quantifier": "all data, splits, executions, delays, timeouts and user code", "why_tests_cant": "Ranges over all data with arbitrary gaps, all splits and all user code.", "anchors": ["src/pybroker/strategy.py:BacktestMixin.backtest_executions", "src/pybroker/strategy.py:Strategy._run_walkforward", "src/pybroker/strategy.py:BacktestMixin._schedule_order", "src/pybroker/strategy.py:BacktestMixin._attempt_pending_order"]}
{"id": "C100", "title": "No look-ahead in a whole run", "statement": "Changing prices dated after a date t, or what user functions do after t, changes nothing that happens up to t: two runs whose data, user functions and slippage models agree up to t go through the same portfolio (cash, positions, orders, trades, recorded bars), pending orders and order attempts on every bar up to t, across all walkforward windows.", "quantifier": "all data frames, dates, splits, executions, selectors, delays and user code", "why_tests_cant": "Compares two runs for every possible future of every data frame and every user function; a test fixes one of each.", "anchors": ["src/pybroker/strategy.py:BacktestMixin.backtest_executions", "src/pybroker/strategy.py:Strategy._run_walkforward", "src/pybroker/strategy.py:Strategy._liquidate_dropped_symbols", "src/pybroker/strategy.py:Strategy._exit_dropped_at_bar", "src/pybroker/scope.py:PriceScope.fetch"]}
{"id": "C101", "title": "Tuning uses training data only", "statement": "In optimize, the trials of a window, their scores and the hyperparameter values chosen depend only on the data of that window's training dates and on what user functions do on those dates: any other data set with the same bars, whose values agree on the training dates, gives the same trials and the same choice.", "quantifier": "all data frames, windows, samplers, score functions, hyperparameters and user code", "why_tests_cant": "Compares two optimizations over every possible test window and every sampler; a test fixes one of each.", "anchors": ["src/pybroker/optimize.py:OptimizeMixin._run_optimize_trial", "src/pybroker/optimize.py:make_objective", "src/pybroker/optimize.py:OptimizeMixin._optimize_walkforward"]}
{"id": "C102", "title": "The best trial is chosen, and scored on the training window", "statement": "The values optimize chooses for a window are those of the first trial with the best score in the given direction. Every trial uses the values its sampler proposed after the trials before it, its score is that of a backtest with these values, and a new portfolio, over exactly the training dates, and failed trials are never chosen. All requested trials are run unless the sampler stops.", "quantifier": "all samplers, score functions, prior trials, directions and training windows", "why_tests_cant": "Must hold for every sequence of scores, with ties and failures, and every sampler.", "anchors": ["src/pybroker/optimize.py:_run_study", "src/pybroker/optimize.py:make_objective", "src/pybroker/optimize.py:_require_completed_trials", "src/pybroker/optimize.py:OptimizeMixin._run_optimize_trial"]}
{"id": "C103", "title": "The result of an optimization is a run with the chosen values", "statement": "The stitched result of a walkforward optimization is a run through the windows in order, with one portfolio and one list of orders, each window with the values chosen for it; when all windows choose the same values it is the one Strategy.walkforward gives with those values over the same data and windows: same portfolio, orders, trades, pending orders and attempts. The result of a single split is a backtest of the chosen values over exactly the test dates, with a new portfolio.", "quantifier": "all strategies, data frames, windows and hyperparameter values", "why_tests_cant": "Two long loops of code must agree on every run of every strategy.", "anchors": ["src/pybroker/optimize.py:OptimizeMixin._optimize_walkforward", "src/pybroker/strategy.py:Strategy._run_walkforward", "src/pybroker/optimize.py:OptimizeMixin._run_optimize_test"]}
{"id": "C104", "title": "No look-ahead in walkforward optimization", "statement": "Changing prices dated after a date t, or what user functions do after t, changes neither the values chosen for any window that tests a date up to t, nor anything the stitched run does up to t.", "quantifier": "all data frames, dates, splits, samplers, score functions and user code", "why_tests_cant": "Compares two optimizations for every possible future of every data frame.", "anchors": ["src/pybroker/optimize.py:OptimizeMixin._optimize_walkforward", "src/pybroker/optimize.py:OptimizeMixin._run_optimize_trial", "src/pybroker/strategy.py:Strategy._liquidate_dropped_symbols"]}
{"id": "C105", "title": "No look-ahead in the test of a single split", "statement": "In optimize without walkforward windows, changing prices dated after a date t, or what user functions do after t, changes nothing the test backtest does up to t; and if a test date is not after t, neither the trials nor the values chosen.", "quantifier": "all data frames, dates, splits, samplers, supplied studies, score functions and user code", "why_tests_cant": "Compares two optimizations for every possible future of every data frame.", "anchors": ["src/pybroker/optimize.py:OptimizeMixin.optimize", "src/pybroker/optimize.py:OptimizeMixin._run_optimize_test"]}
{"id": "C106", "title": "Settings of a run", "statement": "The position limits of a run are those set on the strategy, or else those of its configuration, and a run never ends with more positions than they allow. A run is refused exactly when a limit is not positive, a rotation sizer is set without rotation, rotation is enabled without a limit, or the worst rank held is below a limit.", "quantifier": "all limits, configurations, worst ranks and hyperparameter values", "why_tests_cant": "A decision table over unbounded integers and absent values.", "anchors": ["src/pybroker/strategy.py:Strategy._resolve_backtest_settings", "src/pybroker/strategy.py:_validate_worst_rank_held", "src/pybroker/strategy.py:Strategy._effective_config"]}
{"id": "C107", "title": "Indicators and model input on an interval", "statement": "Whatever was read before, reading an indicator bound to an interval gives its values on exactly the compressed bars completed by the current bar, and a model bound to an interval is given exactly one row for each of them: its input columns and, with lags, the values of the lagged columns on that compressed bar and the ones before it.", "quantifier": "all compressed data, symbols, intervals, models, lags, end indexes and sequences of earlier reads", "why_tests_cant": "Depends on the whole history of reads through several caches.", "anchors": ["src/pybroker/scope.py:IntervalScope.fetch_indicator", "src/pybroker/scope.py:IntervalScope.fetch_input", "src/pybroker/model.py:merge_interval_lag_series_cache"]}
{"id": "C108", "title": "Predictions on an interval", "statement": "Whatever was read before, the predictions of a model bound to an interval are one per compressed bar completed by the current bar. A per-bar model's prediction for a bar is what it says of the rows up to that bar; a row-wise model's is what it says of the bar's row. Predictions are NaN until every lag feature of a row is known.", "quantifier": "all compressed data, symbols, intervals, models, lags, end indexes and sequences of earlier reads", "why_tests_cant": "Depends on the whole history of reads through incrementally filled caches.", "anchors": ["src/pybroker/scope.py:IntervalScope.fetch_preds", "src/pybroker/scope.py:_run_predict", "src/pybroker/model.py:ModelInput.slice_range"]}
{"id": "C109", "title": "No look-ahead on an interval", "statement": "Indicators, model input and predictions read on an interval on a bar do not depend on later bars, for per-bar and row-wise models and indicators that do not look ahead.", "quantifier": "all pairs of bar histories equal up to the bar, intervals, test windows, models and sequences of earlier reads", "why_tests_cant": "Compares two histories for every possible future.", "anchors": ["src/pybroker/scope.py:IntervalScope", "src/pybroker/interval.py:compress", "src/pybroker/interval.py:IntervalData.slice_for_test"]}
{"id": "C110", "title": "Training data on an interval", "statement": "A model bound to an interval is trained on exactly the compressed bars that close in the training window at least lookahead compressed bars before the first one of the test window, from the first with all its lag features; each row holds the bar's values, the indicators computed on the interval, and the lags taken over the whole history, and equals the row the model is later given for that bar when predicting. If bars remain but none has all its features, training fails with an error.", "quantifier": "all compressed data, symbols, intervals, windows, lookaheads, lags, lag columns and sequences of earlier trainings sharing the lag cache", "why_tests_cant": "Training and prediction build their rows in different code; agreement on every row of every window cannot be sampled.", "anchors": ["src/pybroker/model.py:ModelsMixin._prepare_interval_symbol_data", "src/pybroker/interval.py:build_compressed_symbol_arrays", "src/pybroker/interval.py:lookahead_train_dates"]}
{"id": "C111", "title": "Pooled training data on an interval", "statement": "A pooled model bound to an interval is trained on the rows of its symbols, symbol after symbol in name order whatever order the symbols are gone through, with exactly the rows that a model of each symbol alone would be trained on: lags never cross from one symbol to another, and each symbol's warm-up is left out. Its test rows are likewise those of its symbols. If rows remain but every one is warm-up, training fails with an error.", "quantifier": "all sets of symbols and orders of going through them, compressed data, intervals, windows, lookaheads, lags, lag columns and sequences of earlier trainings sharing the lag cache", "why_tests_cant": "The pool is joined, reordered, lagged and trimmed in separate passes over index arrays; that no pass mixes symbols must hold for every combination of lengths and orders.", "anchors": ["src/pybroker/model.py:ModelsMixin._prepare_pooled_interval_data", "src/pybroker/model.py:apply_lags_to_model_input_pooled", "src/pybroker/model.py:ModelInput.drop_lag_warmup"]}
{"id": "C112", "title": "Whole shares", "statement": "With fractional shares disabled, every order, every trade, every position and every entry held has a whole number of shares, whatever fractions the strategy asks for and however buying power, position limits, fees, stops and liquidations cut the orders.", "quantifier": "all runs: strategies, data, configurations without fractional shares, and sequences of orders, stops and exits", "why_tests_cant": "Share counts come from many places (requests, buying power, target sizes, stops, partial closes); every combination must keep them whole.", "anchors": ["src/pybroker/strategy.py:BacktestMixin._get_shares", "src/pybroker/portfolio.py:Portfolio._clamp_shares", "src/pybroker/portfolio.py:Portfolio.buy", "src/pybroker/portfolio.py:Portfolio.sell"]}
{"id": "C113", "title": "Tables of a result", "statement": "The tables of a result list the recorded bars, orders, trades and positions, one row each and in order. With round_test_result amounts are rounded to the nearest cent (halves away from zero); without it they are as recorded. Dates, symbols, types, identifiers and share counts are always as recorded. The metrics are there exactly with two or more bars; their initial and final values and drawdown differ from the recorded ones by at most half a cent or a cent, and the total PnL by at most half a cent per trade, and not at all without rounding.", "quantifier": "all runs, with and without rounding and fractional shares", "why_tests_cant": "Bounds on rounding and the lossless integer cast must hold for every amount and share count.", "anchors": ["src/pybroker/strategy.py:Strategy._to_test_result", "src/pybroker/common.py:quantize", "src/pybroker/eval.py:EvaluateMixin.evaluate"]}
{"id": "C114", "title": "Positions table", "statement": "When position bars are recorded, each bar adds one row for every symbol held that has a close on it, in name order, with the shares held, their value at the close and their unrealized gain; recording never changes the run. On a bar where every symbol held has a close the rows account for the portfolio's own row: its market value, equity and margin are net cash plus sums over the rows.", "quantifier": "all histories of calls on a portfolio, and bars with any closes missing", "why_tests_cant": "Reconciliation of two tables must hold after every history of orders, partial closes and gaps in the data.", "anchors": ["src/pybroker/portfolio.py:Portfolio.capture_bar", "src/pybroker/portfolio.py:PositionBar"]}
{"id": "C115", "title": "Accepted configurations and calls", "statement": "A strategy can be made exactly with a configuration within its documented limits, and a refusal names a field that is out of its limits; the setters keep a strategy within them. A call of backtest or walkforward is accepted exactly when its arguments are in range and the strategy has executions. An accepted call that finishes is a run, with exactly the strategy's and the call's settings, over exactly the rows of the source that the call asks for.", "quantifier": "all configurations, strategies made by the constructor and changed by the methods, data sources, and calls", "why_tests_cant": "Every combination of settings and call arguments must reach the run unchanged or be refused.", "anchors": ["src/pybroker/strategy.py:Strategy._verify_config", "src/pybroker/strategy.py:Strategy.__init__", "src/pybroker/strategy.py:Strategy.backtest", "src/pybroker/strategy.py:Strategy.walkforward", "src/pybroker/strategy.py:Strategy.set_max_long_positions", "src/pybroker/strategy.py:Strategy.enable_rotation"]}
{"id": "C116", "title": "Trades have their orders, orders have their bars", "statement": "Every trade has in the log of orders the order that opened it and, after it, the order that closed it: the sides fit the type of the trade, symbols, dates and fill prices are those of the trade, and neither order is for fewer shares. Every open entry has its opening order. In a run every order is on a bar of its symbol that the call asked for; with fixed symbols it is a bar of a test window.", "quantifier": "all histories of calls on a portfolio, all runs with any user code, and all calls", "why_tests_cant": "The two logs are written by different code paths (orders, flips, stops, forced exits, dropped symbols) that must agree after every history.", "anchors": ["src/pybroker/portfolio.py:Portfolio._add_order", "src/pybroker/portfolio.py:Portfolio._add_trade", "src/pybroker/portfolio.py:Portfolio.check_stops", "src/pybroker/strategy.py:Strategy._liquidate_dropped_symbols"]}
{"id": "C117", "title": "The first stop wins", "statement": "When several stops of an entry are reached on the same bar, exactly one of them exits it: the first, price stops (loss, profit, trailing) by their ids before bar stops by theirs, that is reached at a price its limit allows. A stop blocked by its limit does not keep a later one from exiting. Every entry of a symbol with a usable bar is treated so, and no other trades or orders are made.", "quantifier": "all histories of calls on a portfolio with distinct stop ids, any number of stops per entry, and any bar", "why_tests_cant": "Every combination of stop types, ids, levels and limits over any number of entries must be resolved the same way.", "anchors": ["src/pybroker/portfolio.py:Portfolio.check_stops", "src/pybroker/portfolio.py:Portfolio._trigger_stop", "src/pybroker/portfolio.py:Portfolio._add_stops"]}
{"id": "C118", "title": "Stops table", "statement": "When stops are recorded, each bar adds one row for every stop of an open entry whose symbol has a usable bar, except those preempted by an earlier stop that exited the entry on this bar. The row has the stop's settings, the level after the bar (or the bars held), and a fill price exactly if the bar reached the stop. Every stop trade has its row with its exit price, and a row with a fill price that its limit allows has its trade. Recording never changes the run, and nothing else adds rows.", "quantifier": "all histories of calls on a portfolio with distinct stop ids, and any bar", "why_tests_cant": "The table must agree with the trades and the registered levels after every history of entries, exits and moves of trailing stops.", "anchors": ["src/pybroker/portfolio.py:StopRecord", "src/pybroker/portfolio.py:Portfolio._capture_stop", "src/pybroker/portfolio.py:Portfolio.check_stops", "src/pybroker/portfolio.py:Portfolio._trigger_stop"]}
{"id": "C119", "title": "Every order has its source and its price", "statement": "Each order of a walkforward is filled on a bar of its symbol and has one of three sources. It carries out a signal of an earlier bar: on the signal's side and symbol, with its limit and at most its shares, at the signal's fill price on the bar of the order. Or it is the exit of a stop that a signal carried: on the closing side, with the stop's limit and type, at the stop's exit price on that bar, or between the low and the high without one. Or it closes a position, on the last bar of its symbol or because a window does not trade the symbol, at the configured exit price. The price paid is that price with the slippage of the bar.", "quantifier": "all data, window splits, signals, stops, slippage models and fill prices of a run", "why_tests_cant": "No order may come from nowhere or from another bar's price, over every history of signals, stops, windows and dropped symbols.", "anchors": ["src/pybroker/strategy.py:BacktestMixin.backtest_executions", "src/pybroker/strategy.py:BacktestMixin._place_buy_orders", "src/pybroker/strategy.py:BacktestMixin._place_sell_orders", "src/pybroker/strategy.py:Strategy._exit_dropped_at_bar", "src/pybroker/portfolio.py:Portfolio.check_stops", "src/pybroker/portfolio.py:Portfolio.exit_position", "src/pybroker/scope.py:PriceScope.fetch"]}
{"id": "C120", "title": "Fills stay within the bar", "statement": "If the bars of the data have a low, a high, and an open and close between them, and the fill prices of signals, stops and exits are prices of the bar (open, close, high, low, middle or average), then the price of every order before slippage lies between the low and the high of its symbol on the date of the order, in cents if prices are rounded. Without slippage models so do the fill price of every order and the entry and exit price of every trade.", "quantifier": "all data with such bars, window splits, signals, stops and calls of walkforward", "why_tests_cant": "One fill outside a bar makes a backtest unrealistic; it must be ruled out for every combination of stops, gaps, rounding and forced exits.", "anchors": ["src/pybroker/scope.py:PriceScope.fetch", "src/pybroker/portfolio.py:Portfolio.check_stops", "src/pybroker/portfolio.py:Portfolio._trigger_stop", "src/pybroker/strategy.py:Strategy.walkforward"]}
{"id": "C121", "title": "Fees follow the schedule", "statement": "Every order is charged a fee by the configured schedule: a percentage of shares times fill price, an amount for the order, an amount for each share, or what the user's fee function returns for the order's symbol, side, shares and fill price. Without a fee mode nothing is charged. The fees of a portfolio are the sum of the fees of its orders.", "quantifier": "all configurations, fee functions and sequences of portfolio operations, with orders, stops and forced exits", "why_tests_cant": "Orders come from buys, sells, both halves of a reversal, stops and forced exits; each must charge the fee exactly once.", "anchors": ["src/pybroker/portfolio.py:Portfolio._calculate_fees", "src/pybroker/portfolio.py:Portfolio._add_order"]}
{"id": "C122", "title": "Cash is not overdrawn without leverage", "statement": "At leverage 1, on bars with positive prices and with fees that are not negative, cash is below zero by no more than the fees charged plus the losses of short trades. A long-only strategy without fees never owes anything: on every bar of its result cash is at least zero and at most the market value, equity equals market value, and there is no margin loan; no interest accrues.", "quantifier": "all such data, configurations, signals, stops, fill prices, slippage models and calls of walkforward", "why_tests_cant": "Orders are capped by buying power one at a time; that no sequence of fills, partial exits, stops, interest and marks overdraws the account is an invariant of all histories.", "anchors": ["src/pybroker/portfolio.py:Portfolio._clamp_shares", "src/pybroker/portfolio.py:Portfolio.buy", "src/pybroker/portfolio.py:Portfolio.sell", "src/pybroker/portfolio.py:Portfolio.capture_bar", "src/pybroker/strategy.py:Strategy.walkforward"]}
{"id": "C123", "title": "The order of the rows does not matter", "statement": "Calling walkforward or backtest of a strategy without intervals on a DataFrame with its rows in another order, or with the rows of the training windows shuffled differently, gives the same orders, trades, bars and errors, as long as symbol selectors pick the same symbols from the same rows. (For intervals see C127.)", "quantifier": "all data frames, permutations of their rows, shuffles, strategies without intervals, windows and user functions", "why_tests_cant": "A test can try a few permutations; the splits, arrays, selections and exit dates must ignore the order of every frame.", "anchors": ["src/pybroker/strategy.py:Strategy.walkforward", "src/pybroker/strategy.py:WalkforwardMixin.walkforward_split", "src/pybroker/strategy.py:Strategy._fetch_data", "src/pybroker/strategy.py:Strategy._build_exit_dates", "src/pybroker/scope.py:ColumnScope"]}
{"id": "C124", "title": "Rows a strategy does not use do not matter", "statement": "Adding to or removing from the DataFrame rows of symbols the strategy does not trade, or rows outside its dates, changes nothing: walkforward and backtest return the same result or raise the same error. When both calls are accepted the same is true of rows outside the dates, days and times of day the call itself asks for.", "quantifier": "all pairs of data frames that agree on the rows used, strategies, calls and user functions", "why_tests_cant": "A test adds some rows of some symbol; that no unused row reaches a split, an array, a selector or an exit date must hold for every frame.", "anchors": ["src/pybroker/strategy.py:Strategy._fetch_data", "src/pybroker/strategy.py:Strategy.walkforward", "src/pybroker/strategy.py:Strategy._filter_dates"]}
{"id": "C125", "title": "The signals table shows what the sources have", "statement": "With return_signals the result has one table for each symbol the run trades. Its rows are the dates the symbol is traded on, in order, without gaps or repeats across windows. Each row holds the values the data have for that bar, the value each indicator has on that date, and the predictions the model of that window made for that bar, one column for each component, and no other values; where a source has nothing the cell is missing.", "quantifier": "all runs, data, windows, selectors, registered columns, indicators and models whose names the check accepts", "why_tests_cant": "The table is assembled from slices of windows with columns that may exist only in some of them; that no row is shifted, dropped or mixed with another symbol must hold for every calendar.", "anchors": ["src/pybroker/scope.py:get_signals", "src/pybroker/strategy.py:Strategy._run_walkforward", "src/pybroker/strategy.py:BacktestMixin.backtest_executions"]}
{"id": "C126", "title": "Names of sources are unambiguous", "statement": "A run is refused exactly when an indicator it uses has the name of a data column, or a data column or indicator has a name that the predictions of one of its models can have; the error lists exactly those names. When a run is accepted, data columns, indicators, predictions and components of predictions all have different names.", "quantifier": "all sets of names of columns, indicators and models", "why_tests_cant": "Names are arbitrary strings and prediction columns carry numbers; that no two ever collide is about all of them.", "anchors": ["src/pybroker/scope.py:StaticScope.validate_registered_names", "src/pybroker/strategy.py:Strategy.walkforward", "src/pybroker/strategy.py:Strategy._indicator_syms"]}
{"id": "C127", "title": "A run compresses exactly what its executions need", "statement": "When executions have intervals, the run is refused exactly when the timeframe is blank or not a positive length, or an interval of some execution is not longer than a bar (even if none of that execution's symbols has data), or the dates of a symbol that needs compressed bars do not fit the timeframe. Otherwise there are compressed bars for a symbol and an interval exactly when the symbol has data and an execution with that interval names it or has a selector, and they are the compression of the symbol's bars in date order.", "quantifier": "all executions, timeframes, intervals and data frames, in any order of rows", "why_tests_cant": "Which pairs are needed depends on every execution and on every symbol of the data, and the bars on every row; tests use sorted frames with few symbols.", "anchors": ["src/pybroker/strategy.py:Strategy._build_interval_data", "src/pybroker/strategy.py:_symbol_intervals", "src/pybroker/interval.py:compress_intervals_from_frame", "src/pybroker/interval.py:compress_symbol_intervals_from_frame", "src/pybroker/interval.py:_symbol_row_groups"]}
{"id": "C128", "title": "Intervals and bar spacing must fit the timeframe", "statement": "An interval is accepted exactly when it is a valid interval longer than a bar of the timeframe. The dates of a symbol are accepted exactly when each gap between neighbouring dates is a whole multiple of the timeframe, up to a tolerance of a second, and of an hour more for bars of a day or longer; the order of the rows and repeated dates do not matter.", "quantifier": "all intervals, timeframes and lists of dates", "why_tests_cant": "Gaps are arbitrary numbers that are divided and rounded; the check must be right for each of them and for each order of the rows.", "anchors": ["src/pybroker/interval.py:validate_interval", "src/pybroker/interval.py:_validate_symbol_dates_for_base", "src/pybroker/interval.py:_base_spacing_tolerance", "src/pybroker/interval.py:base_timeframe_to_seconds"]}
{"id": "C129", "title": "Columns are fixed during a run", "statement": "Between runs the data columns are the standard ones followed, in order of name, by those that were registered and not unregistered since. During a run, every read of the columns gives those that were registered when it began, and registering or unregistering is refused; after it, however it ended, the columns are what they were and can be changed.", "quantifier": "all histories of registering, unregistering, reading and running, also from inside callbacks", "why_tests_cant": "The columns are process-wide state with a cached copy; only a history of any length with runs that fail or succeed shows that the copy is never stale.", "anchors": ["src/pybroker/scope.py:StaticScope.register_custom_cols", "src/pybroker/scope.py:StaticScope.unregister_custom_cols", "src/pybroker/scope.py:StaticScope.ordered_data_cols", "src/pybroker/scope.py:StaticScope.freeze_data_cols", "src/pybroker/scope.py:StaticScope.unfreeze_data_cols", "src/pybroker/strategy.py:Strategy.walkforward"]}
{"id": "C130", "title": "Every hyperparameter that a run uses has a value", "statement": "A run is refused exactly when an indicator, model or hyperparameter that it uses is not registered, or a model it uses has a hyperparameter among its arguments. Otherwise its hyperparameters are exactly those of its settings, its executions and the indicators computed for it, including those of its models and on intervals; each has the override given for the run or else the default that is registered, and every indicator's arguments can be resolved.", "quantifier": "all registrations, settings, executions and overrides", "why_tests_cant": "Hyperparameters are reached through settings, executions, indicators and the indicators of models on any interval; missing one path makes some strategy fail in the middle of a run.", "anchors": ["src/pybroker/optimize.py:collect_hyperparams", "src/pybroker/optimize.py:build_run_hyperparams", "src/pybroker/strategy.py:Strategy._indicator_syms", "src/pybroker/indicator.py:Indicator"]}
{"id": "C131", "title": "A backtest on shorter data is the beginning of the longer one", "statement": "Take a backtest without training data, in one window, of given symbols, that leaves positions open at the end. Run it again with the same strategy on the rows up to a date on which or before which every symbol has a bar. After each bar up to that date the portfolio, with its orders, trades and records, is the one it was in the longer backtest, so adding data never rewrites what a backtest reported before.", "quantifier": "all data, strategies whose functions are deterministic, delays and cut dates", "why_tests_cant": "The end of the data is read when orders are scheduled, windows are made and bars are looked up; a test compares a few cut dates of one data set.", "anchors": ["src/pybroker/strategy.py:Strategy.walkforward", "src/pybroker/strategy.py:BacktestMixin.backtest_executions", "src/pybroker/strategy.py:BacktestMixin._schedule_order", "src/pybroker/strategy.py:WalkforwardMixin.walkforward_split", "src/pybroker/scope.py:PendingOrderScope"]}
{"id": "C132", "title": "What a function reads on a bar depends on the data alone", "statement": "A function called on a bar asks its context for its own columns, for another symbol's data, one of its columns or an indicator's values, for single values and for the number of bars. About a symbol that has traded in the window it gets exactly that symbol's rows up to the bar, in the registered columns, or the indicator's values on their dates, whatever was read or looked up before on this and on earlier bars. About any other symbol it gets an error or nothing, never a value.", "quantifier": "all data, windows, calendars, warm-ups, registered columns, indicators and histories of reads", "why_tests_cant": "Answers are kept from one read to the next and a missing counter is created by a lookup; a test fixes one order of reads.", "anchors": ["src/pybroker/context.py:ExecContext.foreign", "src/pybroker/context.py:ExecContext.indicator", "src/pybroker/context.py:set_exec_ctx_data", "src/pybroker/scope.py:ColumnScope.bar_data_from_data_columns", "src/pybroker/strategy.py:BacktestMixin.backtest_executions"]}
{"id": "C133", "title": "Every trial sees the indicators of its own values", "statement": "In an optimisation each trial's functions see, for every indicator that the executions and their models need on each of their symbols, exactly the series that the indicator's function gives for that trial's hyperparameter values, and no other indicator. The test of a window and its replay see those of the chosen values. What was computed once and shared, kept in memory or cached before makes no difference. The study fails on indicators exactly if one of these series does not exist.", "quantifier": "all executions, models, registered indicators, data, hyperparameter values, numbers of trials, caches and earlier windows", "why_tests_cant": "Series are shared between trials, kept across trials and cached across windows; a test runs a few trials with one set of indicators.", "anchors": ["src/pybroker/optimize.py:OptimizeMixin._partition_indicator_syms", "src/pybroker/optimize.py:OptimizeMixin._compute_invariant_indicators", "src/pybroker/optimize.py:OptimizeMixin._run_optimize_test", "src/pybroker/strategy.py:Strategy._indicator_syms", "src/pybroker/indicator.py:IndicatorsMixin.compute_indicators"]}
{"id": "C134", "title": "The order of sets does not matter", "statement": "Executions, the symbols of each and the symbols to be closed at a window's start are kept in sets, whose order changes from one process to the next. A run's orders, trades, portfolio, calls of user code and pending orders are the same whatever this order is; only, if several selectors are at fault, which of them is reported may differ.", "quantifier": "all strategies, data, windows, selectors that are functions of their data, user code that is a function of what it is shown, and all orders of the sets", "why_tests_cant": "The order depends on string hashes, which are randomised per process; a test runs under one hash seed.", "anchors": ["src/pybroker/strategy.py:BacktestMixin.backtest_executions", "src/pybroker/strategy.py:Strategy._run_walkforward", "src/pybroker/strategy.py:Strategy._liquidate_dropped_symbols", "src/pybroker/common.py:_resolve_executions", "src/pybroker/common.py:_selected_symbols"]}
{"id": "C135", "title": "A result's JSON has exactly the sections and symbols asked for", "statement": "to_json accepts a set of known section names, an optional non-empty set of backtested symbols and a limit that is not negative if a table is asked for, and refuses everything else, naming unknown sections or symbols. The JSON has the two dates and exactly the sections that were asked for and that the result has, each once and in a fixed order. The tables of trades, orders, positions, stops and signals list the first rows about the chosen symbols in order, up to the limit, with every field; other sections are not filtered. It can be written as strict JSON text if its numbers are within the range of a float, and the JSON of an optimisation holds that of its result unchanged.", "quantifier": "all results of runs, sets of sections and symbols, and limits", "why_tests_cant": "There are 512 sets of sections, any set of symbols and any tables; tests check a few combinations on one result.", "anchors": ["src/pybroker/strategy.py:TestResult.to_json", "src/pybroker/strategy.py:_filter_df_symbols", "src/pybroker/common.py:_dataframe_records", "src/pybroker/eval.py:BootstrapResult.to_json", "src/pybroker/optimize.py:OptimizeResult.to_json", "src/pybroker/optimize.py:WindowOptimizeResult.to_json", "src/pybroker/optimize.py:_study_summary"]}
{"id": "C136", "title": "A seeded search is reproducible", "statement": "With a seed, the trials of optimize() - the values each tries and their scores, in order, or the error raised - do not depend on the number of workers, on the order of Python's sets, or on what a sampler instance that is passed in has drawn before; window k of a walkforward optimisation is searched as on its own with the seed plus k. Every trial gives each searched hyperparameter, and nothing else, a value within its declared bounds and of its type. A grid search tries every combination of candidates exactly once, or the first n of the same order if n trials are asked for. A grid over other names, or a study of the other direction, is refused before any trial.", "quantifier": "all search spaces, samplers (nested up to three delegations), seeds, worker counts, trial counts, numbers of windows and score functions", "why_tests_cant": "Worker counts, set orders and the state of a sampler are not under a test's control, and the claim compares every pair of runs.", "anchors": ["src/pybroker/optimize.py:_build_sampler", "src/pybroker/optimize.py:_reseed_sampler", "src/pybroker/optimize.py:_trial_params", "src/pybroker/optimize.py:_suggest_from_spec", "src/pybroker/optimize.py:_run_study", "src/pybroker/optimize.py:_sampler_grid", "src/pybroker/optimize.py:_validate_grid_sampler", "src/pybroker/optimize.py:_validate_study_direction", "src/pybroker/optimize.py:OptimizeMixin._optimize_walkforward"]}
{"id": "C137", "title": "compress_bars returns what a run shows", "statement": "compress_bars returns bars exactly when the timeframe is a positive length, the interval is valid and longer than it, and, for a frame, the rows are of one symbol and their dates fit the timeframe (is_valid_interval says the same of an interval). The bars are the groups of the interval in order: first open, last close, date and custom values, highest known high, lowest known low, total volume and volume-weighted price. They are the bars that a run with that interval shows for the same rows, with the columns that the run registers.", "quantifier": "all bar data and frames, intervals, timeframes and columns", "why_tests_cant": "Every length, date pattern, NaN pattern and column set; and the agreement is between two paths through the code.", "anchors": ["src/pybroker/interval.py:compress_bars", "src/pybroker/interval.py:is_valid_interval", "src/pybroker/interval.py:_ohlcv_from_bar_data", "src/pybroker/interval.py:compressed_bars_to_bar_data", "src/pybroker/interval.py:_extract_ohlcv_arrays"]}
{"id": "C138", "title": "Bars can be compressed in steps", "statement": "Compressing bars to an interval and the result to a second interval made of whole ones of the first (n bars and then m of those; days, or lengths that divide a day, to any calendar interval; months to quarters or years; quarters to years; a length to a multiple of it) gives the bars of compressing at once, with the same columns. Volume-weighted prices agree too if all volumes are known and not negative and every bar of the result has some volume.", "quantifier": "all bar data and frames, all such pairs of intervals and all calendars in which months are made of days and years of twelve months", "why_tests_cant": "An equality of two compositions over all bars, with gaps and NaNs anywhere.", "anchors": ["src/pybroker/interval.py:compress_bars", "src/pybroker/interval.py:_calendar_bin_ids", "src/pybroker/interval.py:_duration_bin_ids", "src/pybroker/interval.py:_aggregate_vwap"]}
{"id": "C139", "title": "The bootstrap of a result is reproducible and about the run", "statement": "A result has a bootstrap exactly when one is asked for and the run has two bars or more; it fails only for a number of samples that is not positive. With a seed it does not depend on what was drawn before. Its intervals and drawdown bounds are those of conf_profit_factor of the changes of the market value, conf_sharpe_ratio of the returns with bars_per_year and drawdown_conf of both, each called just after the same seed, although the result draws its samples once for all. Every end of an interval is the metric, annualised as the run's is, of a resample of the run's bars (1 for the profit factor of a resample without any change), the drawdown bounds are quantiles of the resamples' drawdowns, and the two tables hold these numbers under their names.", "quantifier": "all market values, numbers of samples, seeds, random generators and random states", "why_tests_cant": "Reproducibility is about every state the generator can be in, and the agreement of one shared pass with three separate ones about every draw.", "anchors": ["src/pybroker/eval.py:EvaluateMixin.evaluate", "src/pybroker/eval.py:bootstrap_eval_all", "src/pybroker/eval.py:_fill_bootstrap_row", "src/pybroker/eval.py:_seed_bootstrap", "src/pybroker/eval.py:conf_profit_factor", "src/pybroker/eval.py:conf_sharpe_ratio", "src/pybroker/eval.py:drawdown_conf"]}
{"id": "C140", "title": "What a function reads of the account is what the result records", "statement": "On every bar of a completed run, whatever the functions called before on the bar cancelled, the cash, equity, margin, margin loan, net cash balance and market value that a context shows are those of the row that the portfolio table of the result has for the bar, and the table has one row for each bar, in order. The orders and trades a context shows are the first ones of the result. All functions called on the bar are shown the same. win_rate and loss_rate are the shares of winning and losing trades among the trades shown. positions(), pos(), long_pos() and short_pos() agree: each is the selection by symbol and type of the same positions, no symbol is held on both sides, every position has shares, and they are the net of the orders shown; an unknown position type is refused.", "quantifier": "all completed runs, bars, cancellations by functions called before, symbols and position types", "why_tests_cant": "The agreement is between a value read in the middle of a run and the tables at its end, for every run and every bar.", "anchors": ["src/pybroker/context.py:BaseContext.total_equity", "src/pybroker/context.py:BaseContext.cash", "src/pybroker/context.py:BaseContext.buying_power", "src/pybroker/context.py:BaseContext.win_rate", "src/pybroker/context.py:BaseContext.pos", "src/pybroker/context.py:BaseContext.positions", "src/pybroker/context.py:BaseContext.long_positions", "src/pybroker/context.py:ExecContext.long_pos", "src/pybroker/portfolio.py:Portfolio.capture_bar", "src/pybroker/strategy.py:BacktestMixin.backtest_executions"]}
{"id": "C141", "title": "The end of the portfolio table is the end of the run", "statement": "The last row of the portfolio table, from which the end market value, the unrealized PnL and the total fees among the metrics are taken, is the account the run ends with: its cash, equity, margin and market value, and the fees of all orders.", "quantifier": "all completed runs", "why_tests_cant": "It is a claim about the last bar of every run, with whatever positions are open on it.", "anchors": ["src/pybroker/strategy.py:BacktestMixin.backtest_executions", "src/pybroker/strategy.py:BacktestMixin._exit_position", "src/pybroker/portfolio.py:Portfolio.capture_bar", "src/pybroker/eval.py:EvaluateMixin._calc_eval_metrics"]}
{"id": "C142", "title": "Built-in indicators see their columns and no later bar", "statement": "Every indicator that the library offers ready made (highest, lowest, returns, macd, ..., laguerre_rsi) has one value per bar; the value on a bar depends on no later bar; the values depend on no column but those its documentation names, and it is refused when one of these is missing or a length is 0. On bars with low <= close <= high and no negative volume they lie in the indicator's range. highest, lowest and returns are the extremes and the relative change of the named column, built-in or custom, over the period, and atr the mean true range, and NaN before there are enough bars.", "quantifier": "all built-in indicators, arguments, bars and columns", "why_tests_cant": "It ranges over all bar histories, and over all futures that could follow them.", "anchors": ["src/pybroker/indicator.py:highest", "src/pybroker/indicator.py:lowest", "src/pybroker/indicator.py:returns", "src/pybroker/indicator.py:macd", "src/pybroker/indicator.py:atr", "src/pybroker/indicator.py:money_flow", "src/pybroker/indicator.py:laguerre_rsi", "src/pybroker/common.py:BarData"]}
{"id": "C143", "title": "A data source returns what its provider has for each symbol", "statement": "The rows that Alpaca, YFinance, YQuery and AKShare return for a symbol are the bars the provider has for that symbol in the asked dates, one row per bar with the symbol's own values in the documented columns, and do not depend on which other symbols are asked for or on earlier queries. The provider is asked for bars of exactly the length of the timeframe, and a timeframe it does not offer is refused.", "quantifier": "all providers, symbols, dates and timeframes", "why_tests_cant": "It ranges over everything a provider could answer and over all sets of symbols.", "anchors": ["src/pybroker/data.py:_parse_alpaca_timeframe", "src/pybroker/data.py:Alpaca._fetch_data", "src/pybroker/data.py:YFinance._fetch_data", "src/pybroker/ext/data.py:AKShare._fetch_data", "src/pybroker/ext/data.py:_fetch_akshare_symbol", "src/pybroker/ext/data.py:_to_tx_symbol", "src/pybroker/ext/data.py:YQuery._fetch_data"]}
{"id": "C144", "title": "The unit of money does not matter", "statement": "A backtest run in another unit of money (cents for dollars, another currency at a fixed rate, prices adjusted for a common factor), that is with cash, money fees, price columns, fill prices, limits and stop points all multiplied by one positive factor and a strategy that decides the same in that unit, places the same orders of the same shares on the same dates, closes the same trades with the same returns in percent, raises the same errors, and reports amounts multiplied by the factor. The built-in slippage models do not depend on the unit either.", "quantifier": "all positive factors, data, strategies, configurations, slippage models and numbers of windows", "why_tests_cant": "It relates two whole runs for every factor and every strategy.", "anchors": ["src/pybroker/portfolio.py:Portfolio", "src/pybroker/strategy.py:BacktestMixin.backtest_executions", "src/pybroker/strategy.py:Strategy._run_walkforward", "src/pybroker/scope.py:PriceScope", "src/pybroker/slippage.py"]}
{"id": "C145", "title": "The metrics in another unit of money", "statement": "The metrics of a result in another unit of money: amounts (market values, PnL, fees, drawdown in cash, standard error, wins and losses) are multiplied by the factor; percentages, rates, counts, numbers of bars, the date of the drawdown, and the Sharpe, Sortino, Calmar, UPI, ulcer and R-squared values are the same; so are, with the same seed, the bootstrap's Sharpe intervals and drawdowns in percent. The profit factor is above, at or below 1 and at 0 in the same cases.", "quantifier": "all positive factors, market values, fees, trades, numbers of bars per year, seeds and samples; all runs related by C144", "why_tests_cant": "It relates the metrics of two results for every factor, curve and list of trades.", "anchors": ["src/pybroker/eval.py:EvaluateMixin.evaluate", "src/pybroker/eval.py:EvaluateMixin._calc_eval_metrics", "src/pybroker/eval.py:annual_total_return_percent", "src/pybroker/eval.py:EvalMetrics"]}
{"id": "C146", "title": "Annualised metrics", "statement": "Setting bars_per_year adds the annual return, annual standard error, annual volatility and Calmar ratio, multiplies the Sharpe and Sortino ratio by the square root of its value, and changes no other metric but UPI. Compounding the annual return over the run gives the total return; the Sharpe ratio times the annual volatility is the mean return per bar in percent times the bars of a year. The annual return is a number.", "quantifier": "all market values, fees, trades and numbers of bars per year", "why_tests_cant": "It relates metrics of one result with and without a setting, for every curve.", "anchors": ["src/pybroker/eval.py:EvaluateMixin._calc_eval_metrics", "src/pybroker/eval.py:annual_total_return_percent", "src/pybroker/eval.py:sharpe_ratio", "src/pybroker/eval.py:sortino_ratio"]}
{"id": "C147", "title": "Caches that are enabled, disabled and cleared", "statement": "Processes that run one after the other and enable, disable, clear and use the data source, indicator and model caches, in any order and under any namespaces and cache directories, read what one plain map per directory gives: a value stored under a key is read back by any later session that enables the same cache, until it is overwritten, deleted or cleared, whatever is done with other caches and namespaces. Caches of different kinds never share a directory, nor do different plain namespaces in one cache directory. An empty namespace and clearing a cache that is not enabled raise. Clearing a cache empties it for every process.", "quantifier": "all histories of operations, processes, namespaces, directories, bounds of the in-process layer, keys and values", "why_tests_cant": "It is about every interleaving of sessions, namespaces and clears, with eviction from the in-process layer at any point.", "anchors": ["src/pybroker/cache.py:enable_caches", "src/pybroker/cache.py:disable_caches", "src/pybroker/cache.py:clear_caches", "src/pybroker/cache.py:_get_cache_dir", "src/pybroker/cache.py:_L1Cache"]}
{"id": "C148", "title": "Parallel work", "statement": "Computing indicators, training models, scoring trials and optimizing windows in parallel gives each task its own result, in the order of the tasks, whichever worker runs it, whatever order they finish in and whatever earlier work left in the workers: the results are those of running the tasks one after the other in the caller's process, for every configuration that set_parallel accepts; when tasks raise, the error of one of them is raised. Tasks may read the caller's scope. A call of set_parallel that raises changes nothing; otherwise the jobs and backend given last are in force. A worker that hands out work runs it itself. Output suppressed in one thread is suppressed in that thread only, until it leaves the context.", "quantifier": "all tasks, schedules, numbers of workers, scopes left in the workers, histories of set_parallel and interleavings of threads", "why_tests_cant": "It is about every schedule of the workers and every interleaving of threads; a test sees one.", "anchors": ["src/pybroker/parallel.py:set_parallel", "src/pybroker/parallel.py:parallel", "src/pybroker/scope.py:run_with_scope", "src/pybroker/scope.py:StaticScope.__getstate__", "src/pybroker/model.py:_run_model_trainers", "src/pybroker/indicator.py:_run_indicators", "src/pybroker/optimize.py:_run_study", "src/pybroker/optimize.py:walkforward_optimize", "src/pybroker/log.py:Logger._suppress"]}
{"id": "C149", "title": "Only the order of dates matters", "statement": "A backtest or walkforward run depends on the dates of the bars only through their order: if every date of the data is replaced by another one and the order is kept (other gaps, another year, another time of day), and user code asks for the same on the replaced dates, then the run raises the same error, or makes the same orders and trades with the same shares, prices, fees, profits and numbers of bars, each on the replaced date, over the same windows, with the same cash, equity and market value on each date. All evaluation metrics are equal, apart from the date of the maximum drawdown, which is replaced.", "quantifier": "all data, executions, configurations, user code and order-preserving replacements of dates", "why_tests_cant": "It relates two runs for every data set and every renaming of its dates; a test compares a few calendars.", "anchors": ["src/pybroker/strategy.py:Strategy._run_walkforward", "src/pybroker/strategy.py:BacktestMixin.backtest_executions", "src/pybroker/strategy.py:WalkforwardMixin.walkforward_split", "src/pybroker/strategy.py:Strategy._liquidate_dropped_symbols", "src/pybroker/portfolio.py:Portfolio", "src/pybroker/scope.py:slice_symbol_array_store_by_dates", "src/pybroker/eval.py:EvaluateMixin._calc_eval_metrics"]}
{"id": "C150", "title": "Registering a model", "statement": "pybroker.model accepts exactly the calls its documentation allows: lags is a positive integer; with lags, a training function can be given lag_train and lag_test by name and these are not among the model's own arguments; per_bar needs predict_fn and excludes pooled; the name has no '@'; lag_cols needs lags, is not empty and names columns other than date and symbol; indicators are indicators and not bindings to intervals. A call that raises leaves every registered model as it was; one that succeeds replaces the model of that name and no other, so after any calls a name stands for the last call that succeeded. The registered model has each indicator given or to be lagged once, in alphabetical order, and each lagged column once, in the order of first mention. Training calls the function with the lag matrices exactly when the model has lags, and Python accepts that call. The model's input is the columns returned with it, else the data columns and indicators of its training data.", "quantifier": "all calls of pybroker.model, with any signature of the function and any arguments, and all histories of such calls", "why_tests_cant": "The checks interact over every combination of arguments and every function signature, and the last claim is about every history of registrations; tests try a few.", "anchors": ["src/pybroker/model.py:model", "src/pybroker/model.py:_validate_lagged_train_fn", "src/pybroker/model.py:_parse_lag_cols", "src/pybroker/model.py:ModelTrainer", "src/pybroker/model.py:_parse_model_result", "src/pybroker/scope.py:StaticScope.set_model_source"]}
{"id": "C151", "title": "No look-ahead in a run with models", "statement": "A strategy trains models, one per symbol or one pooled for the symbols of an execution, in each walk-forward window on the window's training data, with indicators and lag features, and its functions read bars and predictions. On data that agree up to a date it goes through the same portfolio, pending orders and attempts on every bar up to that date, although training sees all of its window's training data, indicators are computed over all data, and predictions are made for the whole test window at once.", "quantifier": "all data sets that agree up to a date, all splits into windows, causal indicators, training functions, models, lags and functions, and all bars up to that date", "why_tests_cant": "It relates two whole runs over every pair of data sets and every strategy; the stages (split, indicators, lag matrix, training, prediction, cut at the bar) are tested one by one, but a leak anywhere between them shows only in the whole.", "anchors": ["src/pybroker/strategy.py:Strategy._run_walkforward", "src/pybroker/strategy.py:BacktestMixin.backtest_executions", "src/pybroker/model.py:ModelsMixin.train_models", "src/pybroker/scope.py:ModelInputScope", "src/pybroker/scope.py:PredictionScope", "src/pybroker/context.py:ExecContext.preds"]}
{"id": "C152", "title": "Sessions are kept per symbol for the whole run", "statement": "What ctx.session holds when a function is called for a symbol is what was last left there for that symbol in this run, by an earlier call of its function or by before_exec_fn or after_exec_fn, on whichever earlier bar and in whichever earlier window; in the first call of a run it is empty. On a bar before_exec_fn looks first, then each symbol's function at its own session, then after_exec_fn. What a function leaves does not depend on other symbols' sessions.", "quantifier": "all strategies and data, windows, symbols that come and go, warm-up, and functions that change their session in any way", "why_tests_cant": "The session of a bar is the outcome of all earlier calls, over windows with different symbols; a test follows a few bars of one or two symbols.", "anchors": ["src/pybroker/strategy.py:Strategy._run_walkforward", "src/pybroker/strategy.py:BacktestMixin.backtest_executions", "src/pybroker/context.py:ExecContext"]}
{"id": "C153", "title": "No look-ahead by functions that keep state", "statement": "A strategy's functions remember what they like from bar to bar, in ctx.session or elsewhere. On data that agree up to a date they are given the same bars, account, symbols and memory on every bar up to that date, and the run goes through the same portfolio, pending orders and attempts; also when they read the predictions of models trained in each window. A run of such a strategy is a run of the model without state, so what is proved of every run holds of it.", "quantifier": "all data sets that agree up to a date, all splits, all kinds of state, and all functions that do the same when given the same up to that date", "why_tests_cant": "The memory on a bar depends on everything given on all earlier bars, so equality has to be carried through whole runs, for every kind of memory.", "anchors": ["src/pybroker/strategy.py:Strategy._run_walkforward", "src/pybroker/strategy.py:BacktestMixin.backtest_executions", "src/pybroker/context.py:ExecContext"]}
{"id": "C154", "title": "Names of symbols matter only through their order", "statement": "Renaming the symbols of a backtest everywhere (data, executions, and in what user code is given and asks for), with different names for different symbols and their alphabetical order kept, gives the same backtest: it raises the same error or ends with the same orders, trades, cash, equity and profit on each date, each under the new name. When the renaming changes the order of names, results can change: of two symbols that ask for the same cash the one whose name comes first gets it.", "quantifier": "all data sets, executions (fixed or selected), splits into windows, configurations, fill prices, fees, slippage, stops, pending orders, functions and renamings that keep the order", "why_tests_cant": "It relates two whole runs for every renaming; a symbol picked up under a wrong name, by hash order or by string comparison anywhere in the run shows only for particular names.", "anchors": ["src/pybroker/strategy.py:BacktestMixin.backtest_executions", "src/pybroker/strategy.py:Strategy._run_walkforward", "src/pybroker/scope.py:sym_exec_dates_from_store", "src/pybroker/portfolio.py:Portfolio.capture_bar", "src/pybroker/common.py:_resolve_executions"]}
{"id": "C155", "title": "A symbol that nobody trades does not change a run", "statement": "Adding symbols to the data, with or without executions of their own, whose functions return nothing, on dates the data has anyway, does not change a backtest whose executions have fixed symbols: it raises the same error or ends with the same orders, trades, pending orders, cash, equity and profit on each date, and the executions of the other symbols get their turns on the same bars in the same order. When the added symbols have bars on further dates results can change, because the windows and the bars of the backtest are those of all dates.", "quantifier": "all data sets, sets of added symbols, executions with fixed symbols, splits into windows, shuffles of training rows, configurations, fill prices, fees, slippage, stops, pending orders and functions", "why_tests_cant": "It relates two whole runs for every set of added symbols; state shared between symbols anywhere in the run (an index, a cache, the date grid, a check of stops) shows only for particular symbols and gaps in their bars.", "anchors": ["src/pybroker/strategy.py:BacktestMixin.backtest_executions", "src/pybroker/strategy.py:Strategy._run_walkforward", "src/pybroker/strategy.py:Strategy._liquidate_dropped_symbols", "src/pybroker/scope.py:PriceScope", "src/pybroker/portfolio.py:Portfolio.check_stops"]}
{"id": "C156", "title": "Deviation and trend indicators measure the least-squares polynomial of the window", "statement": "On each bar with a whole window, linear_deviation, quadratic_deviation and cubic_deviation are the distance of the last log price from the polynomial of that degree fitted to the log prices of the window by least squares, over the root mean square error of the fit, mapped by normal_cdf to between -50 and 50; they are 0 when the error is negligible. linear_trend, quadratic_trend and cubic_trend have the sign of the leading coefficient of that polynomial, and their size before the mapping is the root of what the degree gains over the degree below, over the mean log true range of the bars, times the share of the variation that is gained.", "quantifier": "all price series, window lengths, scales and bars with a whole window, for degrees one to three", "why_tests_cant": "A test compares a few series with stored numbers. That no polynomial of the degree is closer is a claim about all polynomials and all windows, and the code never forms the polynomial: it uses three arrays of weights built by its own recurrences.", "anchors": ["src/pybroker/vect.py:linear_deviation", "src/pybroker/vect.py:quadratic_deviation", "src/pybroker/vect.py:cubic_deviation", "src/pybroker/vect.py:linear_trend", "src/pybroker/vect.py:quadratic_trend", "src/pybroker/vect.py:cubic_trend"]}
{"id": "C157", "title": "Indicators are the statistics they are named after", "statement": "On each bar with whole windows after the first volume: price_volume_fit is the slope of the line fitted by least squares to log prices over log volumes; detrended_rsi is what the line fitted to the short RSI over the long RSI leaves of the short RSI, where an RSI is the share of Wilder's average of the ups in those of ups and downs; volume_weighted_ma_ratio is the log of the volume-weighted mean price over the mean price; normalized_on_balance_volume is the share of volume with rising less that with falling prices, and delta_on_balance_volume its change; volume_momentum is the log of the ratio of mean volumes of two windows; the positive and negative volume indexes sum the log changes of bars whose volume rose or fell, over their standard deviation; close_minus_ma is the distance of the log price from the mean of those before, over the mean log true range; price_change_oscillator is the difference of mean absolute log changes of two windows. All but detrended_rsi are mapped by normal_cdf to between -50 and 50, and are 0 when what they are divided by is not positive.", "quantifier": "all price and volume series, window lengths, scales and bars with whole windows", "why_tests_cant": "A test compares a few series with stored numbers. An index off by one, a window that is one bar short or a sum over the wrong column gives plausible numbers on any series and breaks the definition on every one.", "anchors": ["src/pybroker/vect.py:price_volume_fit", "src/pybroker/vect.py:detrended_rsi", "src/pybroker/vect.py:volume_weighted_ma_ratio", "src/pybroker/vect.py:normalized_on_balance_volume", "src/pybroker/vect.py:delta_on_balance_volume", "src/pybroker/vect.py:volume_momentum", "src/pybroker/vect.py:normalized_positive_volume_index", "src/pybroker/vect.py:normalized_negative_volume_index", "src/pybroker/vect.py:close_minus_ma", "src/pybroker/vect.py:price_change_oscillator"]}
{"id": "C158", "title": "Averaged indicators in closed form", "statement": "adx is Wilder's average of the directional index: the index itself on the first n bars, its mean since bar n on the next ones, then the average in which each new bar replaces one nth; the index is formed from the sums of up moves, down moves and true ranges in which each bar after the nth keeps 1 - 1/n of the past. stochastic is where the close is between the lowest low and the highest high of the window, and stochastic_rsi where the RSI is between its own extremes, smoothed exponentially as asked. macd is the difference of the exponential averages of the close over the root of half the difference of the lengths times the mean true range, less its own average when smoothed. price_intensity is the exponential average of the move from open to close over the true range. money_flow is the sum of the flows of the window over the sum of its volumes; intraday_intensity is the mean flow, over the average volume when smoothed; a flow is the volume times where the close is in the bar's range.", "quantifier": "all price and volume series, lengths, smoothings, scales and bars with whole windows", "why_tests_cant": "The code updates running sums over three phases of a series; a slip at the seam of two phases, a wrong start of an average or a swapped factor gives plausible numbers, and a test on stored numbers confirms whatever the code gave when they were stored.", "anchors": ["src/pybroker/vect.py:adx", "src/pybroker/vect.py:stochastic", "src/pybroker/vect.py:stochastic_rsi", "src/pybroker/vect.py:macd", "src/pybroker/vect.py:price_intensity", "src/pybroker/vect.py:money_flow", "src/pybroker/vect.py:intraday_intensity"]}
{"id": "C159", "title": "Runs that continue a portfolio", "statement": "A run that is given the portfolio of an earlier run continues its books. The orders, trades and portfolio bars of the earlier runs come first and are unchanged, and the run adds one portfolio bar for each bar of its test data, in order. After any number of runs one after the other, what is held is the net of all orders of all runs, no symbol is long and short, the position limits hold, and without interest the cash is the initial cash with all profit realised and all fees charged since the first run. Everything that holds of the portfolio of one run for the calls that make it up holds for the chain of runs. A run without a portfolio is a run on a new one.", "quantifier": "all strategies, data and windows, all chains of runs of any length with one configuration", "why_tests_cant": "Whether state of one run (open positions, armed stops, ids, bar counts) is carried into the next without being lost or counted twice depends on the states in which a run can end; a test runs a few pairs.", "anchors": ["src/pybroker/strategy.py:Strategy.walkforward", "src/pybroker/strategy.py:Strategy._run_walkforward", "src/pybroker/portfolio.py:Portfolio"]}
{"id": "C160", "title": "A strategy without trading rules only trains", "statement": "A run of a strategy that has no function for any execution, none before or after them, and no rotation, trains its models and does nothing else: it calls no function, places no order and leaves the portfolio as it is, its result has empty tables and no metrics, and it raises only what splitting the data or a symbol selector raises. With any of these the run trades as usual.", "quantifier": "all strategies, data, windows and portfolios given", "why_tests_cant": "That no path of the run touches the portfolio must hold for all data, windows and given portfolios; a test checks the tables of the result, which are empty whatever happened to the portfolio.", "anchors": ["src/pybroker/strategy.py:Strategy.walkforward", "src/pybroker/strategy.py:BacktestMixin.backtest_executions", "src/pybroker/strategy.py:Strategy._to_test_result"]}
{"id": "C161", "title": "Indicators that carry a state", "statement": "reactivity is 0 up to n bars after the first bar with volume, and from then on the squashed product of the move over n bars, over the average range, with how wide the range of the last n + 1 bars is, against its average, for the volume, against its average; the averages are exponential, start at the first bar with volume and have the factor 2 / (n * smoothing + 1), at most 1. laguerre_rsi is the share of falls in the differences between the levels of a four-element Laguerre filter of the mean price whose weight is the fractal energy of the last n bars; bars without range keep the filter as it is and have 0. aroon_diff is how many bars longer ago the latest lowest low of the window is than its latest highest high, in hundredths of the length.", "quantifier": "all price and volume series, lengths, smoothings, scales and bars", "why_tests_cant": "The state is carried through two loops that must agree at their seam, and a rolling range that is scanned anew on each bar; a test on stored numbers confirms whatever the code gave when they were stored (the scan of laguerre_rsi once read the wrong bars).", "anchors": ["src/pybroker/vect.py:reactivity", "src/pybroker/vect.py:laguerre_rsi", "src/pybroker/vect.py:aroon_diff"]}
{"id": "C162", "title": "Optimizing a strategy with pretrained models", "statement": "optimize refuses a strategy that has a model which would be trained, on any interval, and names each such model once, in order. In a window, each registered pretrained model is loaded for exactly the symbols with a bar in the window's training data, with the first and last training dates. What a function reads of a model's predictions on a bar, in a trial or in the test of its window, depends on no value dated later; so the study of a window depends on nothing after its training data, and the values chosen for a window that has begun by a date, and each bar of the stitched replay or of the single split up to that date, depend on no value dated later. This holds whatever is tuned: settings, indicators, or what is done with the predictions.", "quantifier": "all data, split settings, causal indicators that may depend on the tuned values, pretrained models with or without lags that predict row by row, loading functions, user functions, samplers, scores and dates", "why_tests_cant": "Whether a choice of values uses later data cannot be seen from one optimization; it is a relation between optimizations on all pairs of data that agree up to a date.", "anchors": ["src/pybroker/optimize.py:_validate_optimize_models", "src/pybroker/optimize.py:_load_pretrained_models", "src/pybroker/optimize.py:_run_optimize_trial", "src/pybroker/optimize.py:_run_optimize_test", "src/pybroker/model.py:ModelLoader", "src/pybroker/scope.py:PredictionScope"]}
{"id": "C163", "title": "Which symbols share a pooled model", "statement": "In a walk-forward window of a strategy set up by any calls of add_execution and clear_executions, a pooled model is trained once for each execution that lists it: the training function is given the sorted symbols of the execution that have a bar in the training data, and, without lags, exactly the bars these have in the window's training data, symbol after symbol and in date order. Each of these symbols gets that model. A symbol without training data, or of an execution that does not list the model, has none, and executions that list the same pooled model do not share it.", "quantifier": "all sequences of set-up calls, fixed symbols and selectors, data, windows, models and training functions", "why_tests_cant": "It ranges over every set-up and every window; a test pools a handful of symbols that all have data.", "anchors": ["src/pybroker/strategy.py:Strategy._run_walkforward", "src/pybroker/model.py:ModelsMixin.train_models", "src/pybroker/model.py:_train_model_pooled", "src/pybroker/model.py:_pooled_model_input_from_store"]}
{"id": "C164", "title": "A stock split does not matter", "statement": "Run the same history on data in which each symbol is split N-for-1: every price of the symbol divided by N, every number of shares asked for multiplied by N, point stops, limits and slippage in the new price. Then nothing raises that did not raise before, cash, fees, margin, PnL and every row of the portfolio table are the same, every trade has the same dates, PnL, return, bars and stop, and orders, trades and positions have N times the shares at an N-th of the price.", "quantifier": "all histories of orders, exits, captured bars, bar counts, stop checks and removals of stops, all positive whole N per symbol, all configurations", "why_tests_cant": "It is a relation between two runs on every history; a test compares one history with one split factor.", "anchors": ["src/pybroker/portfolio.py:Portfolio.buy", "src/pybroker/portfolio.py:Portfolio.sell", "src/pybroker/portfolio.py:Portfolio.exit_position", "src/pybroker/portfolio.py:Portfolio.capture_bar", "src/pybroker/portfolio.py:Portfolio.check_stops", "src/pybroker/portfolio.py:Portfolio._clamp_shares", "src/pybroker/portfolio.py:Portfolio._calculate_fees"]}
{"id": "C165", "title": "Training models directly on two frames", "statement": "When train_models is called with a training frame and a test frame, the training frame the earlier one for every symbol, and without a history, then for a model of one symbol with lags: training drops the warm-up of the lagged columns plus lags bars and fails when no bar is left; every training bar left carries the values of the lagged columns on it and on each of the lags training bars of the symbol before it; every test bar is kept and carries the same for the symbol's training bars followed by its test bars. It does not matter which of the two column stores are passed along with the frames.", "quantifier": "all frames without duplicate bars, all symbols, columns, indicators, numbers of lags and warm-ups, any earlier use of the lag cache in the call", "why_tests_cant": "Which bar a lag refers to depends on how the bars of the symbol are spread over the two frames; a test fixes one spread.", "anchors": ["src/pybroker/model.py:ModelsMixin.train_models", "src/pybroker/model.py:_history_store", "src/pybroker/scope.py:merge_symbol_array_stores"]}
{"id": "C166", "title": "Confidence intervals nest", "statement": "The confidence intervals that the bootstrap reports for a statistic are never inverted and contain each other: low 97.5% <= low 95% <= low 90% <= high 90% <= high 95% <= high 97.5%.", "quantifier": "all samples of returns, all statistics and jackknives, all rows of indexes drawn, all numbers of bootstrap samples", "why_tests_cant": "Which replicate an end is depends on the bias and the acceleration, which range over continua; a test draws a few samples.", "anchors": ["src/pybroker/eval.py:_bca_intervals_from_boot", "src/pybroker/eval.py:bca_boot_conf", "src/pybroker/vect.py:normal_cdf", "src/pybroker/vect.py:inverse_normal_cdf"]}
{"id": "C167", "title": "Normal quantiles increase", "statement": "inverse_normal_cdf is antisymmetric about the median and increasing: a larger probability has a larger quantile.", "quantifier": "all probabilities from 0 to 1", "why_tests_cant": "It is a claim about all pairs of reals; a test compares a few quantiles with a table.", "anchors": ["src/pybroker/vect.py:inverse_normal_cdf"]}
{"id": "C168", "title": "The Ulcer Index is the root mean square of the drawdowns", "statement": "ulcer_index of some values is the root of the mean of the squares of how far each value is below the highest value so far, in percent of that high; with a period the high is that of the last period values and only values with that many are counted; with no more values than the period the index is 0. For values that are not negative the index is between 0 and 100.", "quantifier": "all arrays of values and all periods", "why_tests_cant": "The running peak depends on the whole history of values; a test compares a few curves.", "anchors": ["src/pybroker/eval.py:ulcer_index", "src/pybroker/vect.py:highv"]}
{"id": "C169", "title": "Cancelling stops cancels those and only those", "statement": "cancel_stop removes exactly the stop with the given id, and answers whether an open entry had one; cancel_stops removes exactly the stops of the given symbol or entry, or exactly those of the given type among them. A removed stop is neither attached nor armed; every other stop keeps its level; cash, shares, positions, orders, trades and all else do not change.", "quantifier": "all histories of calls on a portfolio with fresh stop ids, all symbols, entries, ids and types", "why_tests_cant": "Which entry carries a stop, and which stops are armed, depends on the whole history; a test cancels the stops of a few entries.", "anchors": ["src/pybroker/portfolio.py:Portfolio.remove_stop", "src/pybroker/portfolio.py:Portfolio.remove_stops", "src/pybroker/portfolio.py:Portfolio._remove_entry_stops", "src/pybroker/context.py:ExecContext.cancel_stop", "src/pybroker/context.py:ExecContext.cancel_stops"]}
{"id": "C170", "title": "Indicators in another unit", "statement": "An indicator computed on prices in another unit of money (cents for dollars, a history adjusted for splits by one factor) has the same values: returns, trends, deviations, close_minus_ma, price_change_oscillator, price_intensity, aroon, money_flow, intraday_intensity, reactivity, price_volume_fit, volume_weighted_ma_ratio, the on-balance volumes, the volume indexes, laguerre_rsi, adx, macd, stochastic and the RSIs; highest, lowest and atr are the same amounts in the new unit. The same holds for volumes in another unit, where intraday_intensity without smoothing is an amount.", "quantifier": "all price and volume arrays, positive factors and arguments", "why_tests_cant": "A test compares an indicator with numbers computed for one series; that no step of a recursion depends on the unit is a statement about all of them.", "anchors": ["src/pybroker/vect.py:lowv", "src/pybroker/vect.py:highv", "src/pybroker/vect.py:returnv", "src/pybroker/vect.py:atr", "src/pybroker/vect.py:_trend", "src/pybroker/vect.py:_deviation", "src/pybroker/vect.py:close_minus_ma", "src/pybroker/vect.py:price_intensity", "src/pybroker/vect.py:price_change_oscillator", "src/pybroker/vect.py:_aroon", "src/pybroker/vect.py:_flow", "src/pybroker/vect.py:reactivity", "src/pybroker/vect.py:price_volume_fit", "src/pybroker/vect.py:volume_weighted_ma_ratio", "src/pybroker/vect.py:_on_balance_volume", "src/pybroker/vect.py:_normalized_volume_index", "src/pybroker/vect.py:volume_momentum", "src/pybroker/vect.py:laguerre_rsi", "src/pybroker/vect.py:stochastic"]}
{"id": "C171", "title": "Progress bars", "statement": "While logging and progress bars are on, a backtest of any positive number of dates shows one whole bar: it begins at 0, rises by at most ten dates at a time, reaches the number of dates and ends there once; computing indicators counts every one of them. With logging off or the thread silenced nothing is shown, with progress bars off only the message, and no bar is left over for the next backtest. Code that turns logging off and on during a backtest can only hide parts of its bar. Threads that show or silence their progress do not disturb one another: no call raises in any schedule, and a thread whose companions are silenced shows what it would show alone.", "quantifier": "all numbers of dates and indicators, sequences of backtests, changes of the flags and schedules of threads", "why_tests_cant": "A test watches one bar on one thread; that the last date always ends it, and that no interleaving of threads breaks it, is a statement about all lengths and all schedules.", "anchors": ["src/pybroker/log.py:Logger._start_progress_bar", "src/pybroker/log.py:Logger._update_progress_bar", "src/pybroker/log.py:Logger.backtest_executions_start", "src/pybroker/strategy.py:BacktestMixin.backtest_executions", "src/pybroker/indicator.py:IndicatorsMixin.compute_indicators"]}
{"id": "C172", "title": "More capital, larger orders", "statement": "With N times the cash and N times the shares in every order, at the same prices and with fees that grow with the shares (none, in percent, per share, or a function with this property), everything is N times as large: cash, equity, margin, loan, interest, fees, profits and every row of the portfolio table; orders, trades and positions are of N times the shares, on the same dates, at the same prices, with the same returns, excursions and stops. So results in percent do not depend on the size of the account.", "quantifier": "all portfolio histories, configurations with such fees, and whole positive factors", "why_tests_cant": "A test runs one strategy with one amount of cash; that no step of orders, margin, interest or stops depends on the size of the account is a statement about all histories.", "anchors": ["src/pybroker/portfolio.py:Portfolio.buy", "src/pybroker/portfolio.py:Portfolio.sell", "src/pybroker/portfolio.py:Portfolio.exit_position", "src/pybroker/portfolio.py:Portfolio.capture_bar", "src/pybroker/portfolio.py:Portfolio.check_stops"]}
{"id": "C173", "title": "What a function reads of hyperparameters and global parameters", "statement": "Whatever a program declared, attached, set and cleared before: add_execution accepts hyperparameters exactly if each is the object declared last under its name; in a run that starts, ctx.hyperparam(name) answers exactly for the names attached to the execution, with the value given to the run or else the default of the hyperparameter declared last under the name, and never fails for lack of a value; param(name) is the value last set since the parameters were last cleared, None if there is none, and reading changes nothing.", "quantifier": "all programs of any length that make, declare and attach hyperparameters and set, read and clear parameters; all values given to the run; all names", "why_tests_cant": "A test declares one hyperparameter and reads it once; that every read gives the latest value after any sequence of declarations, also repeated ones, is a statement about all histories.", "anchors": ["src/pybroker/context.py:ExecContext.hyperparam", "src/pybroker/scope.py:StaticScope.param", "src/pybroker/scope.py:StaticScope.clear_params", "src/pybroker/scope.py:StaticScope.set_hyperparam", "src/pybroker/optimize.py:hyperparam", "src/pybroker/strategy.py:Strategy.add_execution"]}
{"id": "C174", "title": "Compressed bars restricted to dates", "statement": "Restricting compressed bars to dates keeps exactly the bars of those dates, in their order, each with all of its cells (prices, volume, VWAP, custom columns), whatever the order of the dates and however often they are repeated; restricting twice keeps the bars of the dates in both lists; the columns stay the same.", "quantifier": "all compressed bars with any number of bars and custom columns, with or without VWAP; all lists of dates", "why_tests_cant": "A test restricts a few bars to one list of dates; that every column is cut at the same rows is a statement about all bars and all dates.", "anchors": ["src/pybroker/interval.py:CompressedBars", "src/pybroker/interval.py:CompressedBars.slice_by_dates"]}
{"id": "C175", "title": "The data frame of bars", "statement": "bars_to_df(BarData(...)) has exactly the columns given, in order (date, open, high, low, close, volume and vwap only when set, then the custom fields), each with the values given, and is refused exactly if the arrays differ in length; a custom field is read as an attribute with its values, any other unknown name raises; custom fields never shadow the bars' own fields.", "quantifier": "all arrays of any length, with or without volume and VWAP, all custom fields; all attribute names", "why_tests_cant": "A test converts one small object; that no combination of fields loses, renames or overwrites a column is a statement about all of them.", "anchors": ["src/pybroker/common.py:BarData", "src/pybroker/common.py:bars_to_df"]}
