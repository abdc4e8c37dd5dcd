{
 "claims": [
  {
   "property": "C01",
   "status": "proved",
   "theorems": [
    "PyBroker.cash_ledger"
   ],
   "note": "For every history of portfolio calls that did not raise."
  },
  {
   "property": "C02",
   "status": "proved",
   "theorems": [
    "PyBroker.recorded_market_value"
   ],
   "note": "Each recorded bar, for every history."
  },
  {
   "property": "C03",
   "status": "proved",
   "theorems": [
    "PyBroker.holdings_net_of_orders"
   ],
   "note": "Every history, every symbol."
  },
  {
   "property": "C04",
   "status": "proved",
   "theorems": [
    "PyBroker.books_well_formed"
   ],
   "note": "Every history."
  },
  {
   "property": "C05",
   "status": "proved",
   "theorems": [
    "PyBroker.never_long_and_short"
   ],
   "note": "Every history."
  },
  {
   "property": "C06",
   "status": "proved",
   "theorems": [
    "PyBroker.sell_fifo",
    "PyBroker.buy_fifo"
   ],
   "note": "Every reachable portfolio and filled order."
  },
  {
   "property": "C07",
   "status": "proved",
   "theorems": [
    "PyBroker.realised_pnl_and_win_rate"
   ],
   "note": "Every history."
  },
  {
   "property": "C08",
   "status": "proved",
   "theorems": [
    "PyBroker.logs_append_only",
    "PyBroker.logs_consecutive"
   ],
   "note": "Every history; consecutive ids need positive prices."
  },
  {
   "property": "C09",
   "status": "proved",
   "theorems": [
    "PyBroker.limits_honoured"
   ],
   "note": "Every history."
  },
  {
   "property": "C10",
   "status": "proved",
   "theorems": [
    "PyBroker.position_caps"
   ],
   "note": "Every history."
  },
  {
   "property": "C11",
   "status": "proved",
   "theorems": [
    "PyBroker.position_mode"
   ],
   "note": "Every history."
  },
  {
   "property": "C12",
   "status": "proved",
   "theorems": [
    "PyBroker.unfilled_changes_nothing",
    "PyBroker.bad_input_refused"
   ],
   "note": "Every reachable portfolio and request."
  },
  {
   "property": "C13",
   "status": "proved",
   "theorems": [
    "PyBroker.fill_at_most_request"
   ],
   "note": "Every reachable portfolio and request."
  },
  {
   "property": "C15",
   "status": "proved",
   "theorems": [
    "PyBroker.margin_loan_nonneg"
   ],
   "note": "Every history."
  },
  {
   "property": "C16",
   "status": "proved",
   "theorems": [
    "PyBroker.interest_step"
   ],
   "note": "Every history."
  },
  {
   "property": "C17",
   "status": "proved",
   "theorems": [
    "PyBroker.exit_position_flattens"
   ],
   "note": "Every reachable portfolio."
  },
  {
   "property": "C14",
   "status": "partial",
   "theorems": [
    "PyBroker.buy_leverage_cap_partial",
    "PyBroker.sell_leverage_cap_partial",
    "PyBroker.leverage_cap_flip_fails"
   ],
   "note": "Proved for orders that open or add without first closing the opposite side; leverage_cap_flip_fails shows an order that flips a position above leverage 1 exceeds the cap."
  },
  {
   "property": "C18",
   "status": "proved",
   "theorems": [
    "PyBroker.price_stop_touch",
    "PyBroker.stop_orders_in_bar",
    "PyBroker.stop_initial_level"
   ],
   "note": "Trigger iff touch and fill inside the bar for every stop, level and bar; stop orders of any reachable portfolio lie in their bar."
  },
  {
   "property": "C19",
   "status": "proved",
   "theorems": [
    "PyBroker.trailing_only_tightens",
    "PyBroker.stop_initial_level",
    "PyBroker.fixed_stops_never_move",
    "PyBroker.trailing_lost_on_missing_high"
   ],
   "note": "Every history and continuation whose checked bars have finite highs and lows; trailing_lost_on_missing_high shows that hypothesis is needed."
  },
  {
   "property": "C20",
   "status": "proved",
   "theorems": [
    "PyBroker.stops_exit_once"
   ],
   "note": "Every reachable portfolio with fresh stop ids."
  },
  {
   "property": "C21",
   "status": "proved",
   "theorems": [
    "PyBroker.armed_stops_are_open_stops",
    "PyBroker.removed_stop_stays_removed"
   ],
   "note": "Every history with fresh stop ids."
  },
  {
   "property": "C22",
   "status": "proved",
   "theorems": [
    "PyBroker.entry_history",
    "PyBroker.entry_signs",
    "PyBroker.trade_history"
   ],
   "note": "Every open entry and every trade of every history."
  },
  {
   "property": "C23",
   "status": "proved",
   "theorems": [
    "PyBroker.entry_history",
    "PyBroker.entry_signs",
    "PyBroker.bar_stop_on_time"
   ],
   "note": "Every history and calendar; the bar stop theorem is for an entry whose only stop is the BAR stop, without limit price, on a bar with a positive fill price."
  },
  {
   "property": "C24",
   "status": "proved",
   "theorems": [
    "PyBroker.unmarked_are_newest",
    "PyBroker.buy_valued_at_cost",
    "PyBroker.sell_valued_at_cost",
    "PyBroker.unmarked_wrong_after_stop"
   ],
   "note": "Every continuation without stop checks or a mark of the symbol; unmarked_wrong_after_stop shows stop exits of newer entries break it."
  },
  {
   "property": "C25",
   "status": "proved",
   "theorems": [
    "PyBroker.Slippage.fixed_slippage",
    "PyBroker.Slippage.fixed_accepts"
   ],
   "note": "Every configuration and fill."
  },
  {
   "property": "C26",
   "status": "proved",
   "theorems": [
    "PyBroker.Slippage.volatility_slippage",
    "PyBroker.Slippage.fill_atr",
    "PyBroker.Slippage.volume_slippage",
    "PyBroker.Slippage.volume_whole_shares",
    "PyBroker.Slippage.volume_exact",
    "PyBroker.Slippage.volume_accepts",
    "PyBroker.Slippage.volatility_accepts",
    "PyBroker.Slippage.volatility_improves_bad_bar"
   ],
   "note": "Every configuration, bar and fill; the volatility theorem needs bars whose low is not above the high, and volatility_improves_bad_bar shows why."
  },
  {
   "property": "C27",
   "status": "proved",
   "theorems": [
    "PyBroker.registry_is_one_map",
    "PyBroker.registry_ids_fresh"
   ],
   "note": "Every history of calls on the registry."
  },
  {
   "property": "C28",
   "status": "proved",
   "theorems": [
    "PyBroker.order_delay",
    "PyBroker.signals_become_orders",
    "PyBroker.attempts_after_signal"
   ],
   "note": "Every well-formed window, signal and run; a result that sets both sides is rejected before it reaches the scheduler (C66)."
  },
  {
   "property": "C29",
   "status": "proved",
   "theorems": [
    "PyBroker.attempts_bounded",
    "PyBroker.due_orders_attempted"
   ],
   "note": "Every run over any windows; bar and calendar data are well-formed (RunOK)."
  },
  {
   "property": "C30",
   "status": "partial",
   "theorems": [
    "PyBroker.pending_priority_partial",
    "PyBroker.sortPending_spec",
    "PyBroker.cover_flag_lost",
    "PyBroker.cover_retry_after_sell"
   ],
   "note": "Exits of shorts come first, then sells, then buys, by id. Missing: a cover made with cover_shares is retried as an ordinary buy, after sells; cover_retry_after_sell is a run that shows it."
  },
  {
   "property": "C31",
   "status": "proved",
   "theorems": [
    "PyBroker.exit_long_never_shorts",
    "PyBroker.exit_short_never_buys"
   ],
   "note": "Every reachable portfolio, bar, slippage model and order."
  },
  {
   "property": "C35",
   "status": "proved",
   "theorems": [
    "PyBroker.score_order",
    "PyBroker.bar_execution_order"
   ],
   "note": "Every list of results."
  },
  {
   "property": "C72",
   "status": "proved",
   "theorems": [
    "PyBroker.backtest_history"
   ],
   "note": "Every well-formed run whose stops have distinct ids."
  },
  {
   "property": "C73",
   "status": "proved",
   "theorems": [
    "PyBroker.recorded_bar",
    "PyBroker.margin_stale_without_close"
   ],
   "note": "All fields, every history. The short margin is proved when every open short has a close; margin_stale_without_close shows it is stale otherwise."
  },
  {
   "property": "C32",
   "status": "proved",
   "theorems": [
    "PyBroker.rank_spec",
    "PyBroker.rank_order",
    "PyBroker.rotation_ranks"
   ],
   "note": "Every list of scores with distinct symbols."
  },
  {
   "property": "C33",
   "status": "proved",
   "theorems": [
    "PyBroker.rotation_slots",
    "PyBroker.rotation_exits",
    "PyBroker.rotation_plan",
    "PyBroker.run_indexed"
   ],
   "note": "Every bar, rank table and registry a run can leave."
  },
  {
   "property": "C34",
   "status": "proved",
   "theorems": [
    "PyBroker.overlap_resolved",
    "PyBroker.rotation_plan"
   ],
   "note": "Every pair of choices and ranks."
  },
  {
   "property": "C74",
   "status": "proved",
   "theorems": [
    "PyBroker.rotation_targets",
    "PyBroker.rotation_plan"
   ],
   "note": "Positive limits, as the settings require."
  },
  {
   "property": "C36",
   "status": "proved",
   "theorems": [
    "PyBroker.train_before_test",
    "PyBroker.split_blocks"
   ],
   "note": "Train sizes strictly between 0 and 1, every number of dates, windows and lookahead, with or without shuffling. Exact arithmetic."
  },
  {
   "property": "C37",
   "status": "proved",
   "theorems": [
    "PyBroker.test_windows",
    "PyBroker.split_blocks"
   ],
   "note": "As for C36."
  },
  {
   "property": "C38",
   "status": "proved",
   "theorems": [
    "PyBroker.split_total",
    "PyBroker.split_index_error"
   ],
   "note": "Train sizes of at most 1, the documented maximum. split_index_error shows that a larger one, which is not rejected, can raise IndexError."
  },
  {
   "property": "C39",
   "status": "proved",
   "theorems": [
    "PyBroker.split_whole"
   ],
   "note": "Every number of dates and windows."
  },
  {
   "property": "C40",
   "status": "partial",
   "theorems": [
    "PyBroker.columns_no_future",
    "PyBroker.column_read",
    "PyBroker.column_value_no_future",
    "PyBroker.column_value_read",
    "PyBroker.indicator_read",
    "PyBroker.indicator_cache",
    "PyBroker.per_bar_no_future",
    "PyBroker.per_bar_predictions",
    "PyBroker.predictions_read",
    "PyBroker.count_no_future",
    "PyBroker.calendar_visible_partial",
    "PyBroker.interval_shows_next_bar",
    "PyBroker.model_input_no_future"
   ],
   "note": "Columns, base-timeframe indicators, predictions and n-bar intervals. Indicators and whole-window models are user functions, so they are required to be causal themselves; per-bar models need no assumption beyond an input function that works row by row (C151, input_function_sees_ahead). For calendar and duration intervals the visible bars use no later price, but whether the run ending on this bar is already shown depends on the existence of a next bar (interval_shows_next_bar refutes the full claim). Model input and lag features: model_input_no_future."
  },
  {
   "property": "C41",
   "status": "proved",
   "theorems": [
    "PyBroker.column_value",
    "PyBroker.indicator_value",
    "PyBroker.interval_indicator_guarded"
   ],
   "note": "Columns and indicators, every end index."
  },
  {
   "property": "C42",
   "status": "proved",
   "theorems": [
    "PyBroker.predictions_append_only",
    "PyBroker.per_bar_predictions"
   ],
   "note": "Any appends and any contents of the unused buffer cells; any earlier reads."
  },
  {
   "property": "C43",
   "status": "proved",
   "theorems": [
    "PyBroker.aligned_positions",
    "PyBroker.aligned_values"
   ],
   "note": "Strictly increasing dates, which the store's frame check and sort give."
  },
  {
   "property": "C44",
   "status": "proved",
   "theorems": [
    "PyBroker.cent_rounding",
    "PyBroker.cent_halves",
    "PyBroker.mixed_prices_in_range",
    "PyBroker.prices_current"
   ],
   "note": "Exact arithmetic; infinities are not modelled."
  },
  {
   "property": "C71",
   "status": "proved",
   "theorems": [
    "PyBroker.active_exact",
    "PyBroker.bar_clock"
   ],
   "note": "Any calendars of the symbols."
  },
  {
   "property": "C75",
   "status": "proved",
   "theorems": [
    "PyBroker.prices_current"
   ],
   "note": "Any bars, active symbols and reads; arrays of a symbol have one length."
  },
  {
   "property": "C45",
   "status": "proved",
   "theorems": [
    "PyBroker.calendar_compress",
    "PyBroker.count_compress",
    "PyBroker.weekly_bins",
    "PyBroker.calendar_spans",
    "PyBroker.duration_spans"
   ],
   "note": "Any bin function; calendar months and years are arbitrary functions of the date."
  },
  {
   "property": "C46",
   "status": "proved",
   "theorems": [
    "PyBroker.calendar_compress",
    "PyBroker.count_compress",
    "PyBroker.weekly_bins",
    "PyBroker.calendar_spans",
    "PyBroker.duration_spans",
    "PyBroker.aggVwap_eq"
   ],
   "note": "The compressed bar of each group is described by Spec.Compresses."
  },
  {
   "property": "C47",
   "status": "proved",
   "theorems": [
    "PyBroker.calendar_compress",
    "PyBroker.count_compress",
    "PyBroker.visible_monotone",
    "PyBroker.interval_read"
   ],
   "note": "A calendar or duration run that is the last of the data counts as still forming."
  },
  {
   "property": "C48",
   "status": "proved",
   "theorems": [
    "PyBroker.interval_name_round_trip",
    "PyBroker.interval_names_distinct",
    "PyBroker.plain_name",
    "PyBroker.normalize_idempotent",
    "PyBroker.duration_canonical",
    "PyBroker.intervals_accepted"
   ],
   "note": "ASCII digits, letters and white space."
  },
  {
   "property": "C62",
   "status": "proved",
   "theorems": [
    "PyBroker.timeframe_parse",
    "PyBroker.timeframe_unknown_unit",
    "PyBroker.timeframe_units_once",
    "PyBroker.timeframe_format"
   ],
   "note": "ASCII strings. timeframe_accepts_junk shows text that is not well formed and is accepted."
  },
  {
   "property": "C76",
   "status": "proved",
   "theorems": [
    "PyBroker.vwap_in_range"
   ],
   "note": "Exact arithmetic."
  },
  {
   "property": "C49",
   "status": "proved",
   "theorems": [
    "PyBroker.lowv_window_min",
    "PyBroker.highv_window_max",
    "PyBroker.rolling_accepts"
   ],
   "note": "Any values including NaN, any window length."
  },
  {
   "property": "C50",
   "status": "proved",
   "theorems": [
    "PyBroker.sumv_window_sum",
    "PyBroker.sumv_values"
   ],
   "note": "Exact arithmetic, with NaN and infinities as the code counts them."
  },
  {
   "property": "C51",
   "status": "proved",
   "theorems": [
    "PyBroker.returnv_change",
    "PyBroker.cross_up"
   ],
   "note": "Any arrays."
  },
  {
   "property": "C52",
   "status": "proved",
   "theorems": [
    "PyBroker.aroon_range",
    "PyBroker.aroon_value",
    "PyBroker.stochastic_range",
    "PyBroker.rsi_range",
    "PyBroker.stochasticRsi_range",
    "PyBroker.laguerreRsi_range",
    "PyBroker.adx_range"
   ],
   "note": "Exact arithmetic in any ordered field; log is arbitrary."
  },
  {
   "property": "C53",
   "status": "partial",
   "theorems": [
    "PyBroker.rolling_causal",
    "PyBroker.returnv_cross_causal",
    "PyBroker.atr_causal",
    "PyBroker.detrendedRsi_causal",
    "PyBroker.macd_causal",
    "PyBroker.stochastic_causal",
    "PyBroker.stochasticRsi_causal",
    "PyBroker.trend_causal",
    "PyBroker.aroon_causal",
    "PyBroker.closeMinusMa_causal",
    "PyBroker.deviation_causal",
    "PyBroker.priceIntensity_causal",
    "PyBroker.priceChangeOscillator_causal",
    "PyBroker.flow_causal",
    "PyBroker.reactivity_causal",
    "PyBroker.volumeFit_causal",
    "PyBroker.obv_causal",
    "PyBroker.volumeIndex_causal",
    "PyBroker.volumeMomentum_causal",
    "PyBroker.laguerreRsi_causal",
    "PyBroker.adx_causal_partial",
    "PyBroker.adx_not_causal",
    "PyBroker.priceVolumeFit_no_volume"
   ],
   "note": "All indicators but one. adx is not causal: with fewer than 2*lookback bars it is all zero, so more bars change earlier values (adx_not_causal); it is once there are 2*lookback bars. Two volume indicators need a bar with volume when lookback is 1."
  },
  {
   "property": "C77",
   "status": "partial",
   "theorems": [
    "PyBroker.documented_ranges",
    "PyBroker.normalCdf_range",
    "PyBroker.normalCdf_symm",
    "PyBroker.macd_range_partial",
    "PyBroker.deltaObv_range_partial",
    "PyBroker.macd_leaves_range",
    "PyBroker.deltaObv_leaves_range"
   ],
   "note": "Over the reals with normal_cdf as computed. False for macd with smoothing and for delta_on_balance_volume, which range over [-100, 100]."
  },
  {
   "property": "C78",
   "status": "proved",
   "theorems": [
    "PyBroker.atr_mean"
   ],
   "note": "Exact arithmetic."
  },
  {
   "property": "C79",
   "status": "proved",
   "theorems": [
    "PyBroker.moneyFlow_range"
   ],
   "note": "Exact arithmetic."
  },
  {
   "property": "C54",
   "status": "proved",
   "theorems": [
    "PyBroker.max_drawdown_spec",
    "PyBroker.max_drawdown_pct_spec",
    "PyBroker.max_drawdown_pct_bounds"
   ],
   "note": "Exact arithmetic, any ordered field."
  },
  {
   "property": "C55",
   "status": "proved",
   "theorems": [
    "PyBroker.trade_sums",
    "PyBroker.trade_extremes",
    "PyBroker.trade_rates",
    "PyBroker.standalone_agree",
    "PyBroker.standalone_streaks"
   ],
   "note": "Exact arithmetic."
  },
  {
   "property": "C56",
   "status": "proved",
   "theorems": [
    "PyBroker.changes_sum",
    "PyBroker.profit_factor_sign",
    "PyBroker.profit_loss_total",
    "PyBroker.metrics_identity",
    "PyBroker.metrics_return",
    "PyBroker.metrics_exist"
   ],
   "note": "Exact arithmetic. The metric identity holds by construction of unrealized_pnl; interest is part of it."
  },
  {
   "property": "C57",
   "status": "proved",
   "theorems": [
    "PyBroker.drawdown_bounds",
    "PyBroker.drawdown_degenerate",
    "PyBroker.bca_ends",
    "PyBroker.bca_inner",
    "PyBroker.bca_ordered"
   ],
   "note": "For arbitrary draws, normal distribution approximations and truncation."
  },
  {
   "property": "C58",
   "status": "proved",
   "theorems": [
    "PyBroker.jackknife_pf",
    "PyBroker.jackknife_log_pf",
    "PyBroker.jackknife_sharpe",
    "PyBroker.jackknife_generic",
    "PyBroker.jackknives_real",
    "PyBroker.jackknife_pf_differs"
   ],
   "note": "The plain profit factor shortcut differs from profit_factor when nothing is left in the sample (jackknife_pf_differs)."
  },
  {
   "property": "C80",
   "status": "proved",
   "theorems": [
    "PyBroker.mv_drawdown",
    "PyBroker.mv_drawdown_pct",
    "PyBroker.drawdown_date"
   ],
   "note": "Exact arithmetic; the percentage for positive market values."
  },
  {
   "property": "C81",
   "status": "proved",
   "theorems": [
    "PyBroker.relative_entropy_range",
    "PyBroker.iqr_range",
    "PyBroker.r_squared_range",
    "PyBroker.ulcer_zero",
    "PyBroker.reported_scores",
    "PyBroker.bca_accel_bound"
   ],
   "note": "Entropy and acceleration over the reals."
  },
  {
   "property": "C82",
   "status": "proved",
   "theorems": [
    "PyBroker.sortino_inf",
    "PyBroker.calmar_inf",
    "PyBroker.upi_inf",
    "PyBroker.reported_scores"
   ],
   "note": "Finite inputs."
  },
  {
   "property": "C59",
   "status": "proved",
   "theorems": [
    "PyBroker.cache_transparent",
    "PyBroker.cache_fresh",
    "PyBroker.l1_bounded",
    "PyBroker.text_write_stale",
    "PyBroker.none_write_masks",
    "PyBroker.culled_resurrects"
   ],
   "note": "diskcache is taken to be a map that may drop entries; calls are not concurrent. Outside the claim: writes by the older string form (text_write_stale) and stored None (none_write_masks). A write keeps the older form on disk, so a dropped newer entry brings the older value back (culled_resurrects)."
  },
  {
   "property": "C60",
   "status": "proved",
   "theorems": [
    "PyBroker.cached_query_same",
    "PyBroker.cached_query_rows",
    "PyBroker.query_terminates",
    "PyBroker.schema_change_refetches"
   ],
   "note": "Sources with a fixed set of rows per key, one row per symbol and date. Termination and the schema change hold for every source and cache."
  },
  {
   "property": "C61",
   "status": "partial",
   "theorems": [
    "PyBroker.requests_separate_partial",
    "PyBroker.query_reads_own",
    "PyBroker.query_writes_own",
    "PyBroker.model_keys",
    "PyBroker.settings_not_separated",
    "PyBroker.timeframes_not_separated",
    "PyBroker.indicator_keys",
    "PyBroker.indicator_data_not_separated",
    "PyBroker.indicator_redefined_not_separated",
    "PyBroker.model_data_not_separated"
   ],
   "note": "The indicator and model keys do not hold the data source, adjust or the function. Settings of a source object are not part of the key (settings_not_separated), nor is the timeframe beyond its length in seconds (timeframes_not_separated)."
  },
  {
   "property": "C83",
   "status": "proved",
   "theorems": [
    "PyBroker.bar_execution_order"
   ],
   "note": "Every bar on which no error is raised."
  },
  {
   "property": "C63",
   "status": "partial",
   "theorems": [
    "PyBroker.json_only_partial",
    "PyBroker.json_fixed",
    "PyBroker.json_idempotent_partial",
    "PyBroker.json_sequence",
    "PyBroker.json_set",
    "PyBroker.json_dict",
    "PyBroker.json_null_iff",
    "PyBroker.frame_records",
    "PyBroker.json_overflow",
    "PyBroker.json_overflow_raises",
    "PyBroker.json_keys_collide"
   ],
   "note": "For values whose finite numbers fit a float. A Decimal or long double beyond the float range becomes infinity or raises (json_overflow, json_overflow_raises). Distinct keys can become equal and lose entries (json_keys_collide)."
  },
  {
   "property": "C64",
   "status": "proved",
   "theorems": [
    "PyBroker.resolve_executions",
    "PyBroker.resolved_disjoint",
    "PyBroker.resolve_order",
    "PyBroker.add_execution_ok",
    "PyBroker.setup_disjoint",
    "PyBroker.window_disjoint"
   ],
   "note": "Selectors are arbitrary functions of the data."
  },
  {
   "property": "C70",
   "status": "proved",
   "theorems": [
    "PyBroker.dropped_liquidated"
   ],
   "note": "Every backtest without an error, any window with test data."
  },
  {
   "property": "C67",
   "status": "proved",
   "theorems": [
    "PyBroker.hyper_accepted",
    "PyBroker.lattice_exact",
    "PyBroker.fixed_undefined",
    "PyBroker.grid_exact",
    "PyBroker.mem_points",
    "PyBroker.lattice_duplicates",
    "PyBroker.default_unchecked"
   ],
   "note": "Decimals are exact rationals; float(Decimal) is an arbitrary function. Steps below the float resolution make equal candidates (lattice_duplicates); the default need not be a candidate (default_unchecked)."
  },
  {
   "property": "C84",
   "status": "proved",
   "theorems": [
    "PyBroker.run_hyperparams",
    "PyBroker.resolve_args"
   ],
   "note": "Overrides have distinct names, as in a dict."
  },
  {
   "property": "C85",
   "status": "proved",
   "theorems": [
    "PyBroker.grid_resumed",
    "PyBroker.batches_exact",
    "PyBroker.trials_resolved"
   ],
   "note": "For samplers whose draws do not depend on results; optuna itself is not modelled."
  },
  {
   "property": "C65",
   "status": "proved",
   "theorems": [
    "PyBroker.calc_target",
    "PyBroker.set_target",
    "PyBroker.reached_positions",
    "PyBroker.set_target_reached",
    "PyBroker.target_ignores_opposite",
    "PyBroker.targets_collide"
   ],
   "note": "A position on the other side is ignored (target_ignores_opposite); orders set before are not taken back, so two targets on one bar can raise (targets_collide)."
  },
  {
   "property": "C66",
   "status": "proved",
   "theorems": [
    "PyBroker.result_exact"
   ],
   "note": "Settings are typed; a limit price is checked to be finite here, its sign is checked by the portfolio."
  },
  {
   "property": "C86",
   "status": "proved",
   "theorems": [
    "PyBroker.bar_forgets",
    "PyBroker.bar_starts_empty"
   ],
   "note": ""
  },
  {
   "property": "C87",
   "status": "proved",
   "theorems": [
    "PyBroker.rotation_ignores_orders",
    "PyBroker.rotation_leaves",
    "PyBroker.rotation_exits_all",
    "PyBroker.rotation_enters",
    "PyBroker.rotation_drops_hold_fill"
   ],
   "note": "The sell fill price of a holding period is dropped by rotation (rotation_drops_hold_fill)."
  },
  {
   "property": "C68",
   "status": "proved",
   "theorems": [
    "PyBroker.cached_lags",
    "PyBroker.run_serves",
    "PyBroker.lag_matrix",
    "PyBroker.lag_row_past",
    "PyBroker.lag_window",
    "PyBroker.lag_matrix_pooled"
   ],
   "note": "Pooled matrices are stated for the symbols of the group; the code leaves rows of other symbols uninitialised."
  },
  {
   "property": "C69",
   "status": "proved",
   "theorems": [
    "PyBroker.drop_warmup",
    "PyBroker.past_grouped",
    "PyBroker.warmup_len",
    "PyBroker.training_lags"
   ],
   "note": "training_lags is for the input of one symbol on the base timeframe."
  },
  {
   "property": "C88",
   "status": "proved",
   "theorems": [
    "PyBroker.training_rows",
    "PyBroker.training_lags",
    "PyBroker.interval_training_rows",
    "PyBroker.shuffle_no_effect"
   ],
   "note": "shuffle=True has no effect on the data of models (shuffle_no_effect); the shuffled frame only reaches symbol selection functions."
  },
  {
   "property": "C89",
   "status": "proved",
   "theorems": [
    "PyBroker.indicators_exact",
    "PyBroker.indicators_defined"
   ],
   "note": "From every state reachable through runs, optimisations and dropped entries. The functions of indicators are arbitrary."
  },
  {
   "property": "C90",
   "status": "proved",
   "theorems": [
    "PyBroker.indicators_exact",
    "PyBroker.memo_bounded"
   ],
   "note": "Data and indicators are fixed over the history; see C61 for the indicator cache when they are not."
  },
  {
   "property": "C91",
   "status": "proved",
   "theorems": [
    "PyBroker.indicator_set",
    "PyBroker.indicator_set_defined"
   ],
   "note": ""
  },
  {
   "property": "C92",
   "status": "proved",
   "theorems": [
    "PyBroker.window_models",
    "PyBroker.window_models_defined",
    "PyBroker.models_exact",
    "PyBroker.models_defined"
   ],
   "note": "Fitting one task is an arbitrary function of the window's dates, lookahead, hyperparameters and the task, with the data fixed over the history; see C61 when they are not."
  },
  {
   "property": "C93",
   "status": "proved",
   "theorems": [
    "PyBroker.pooled_training_rows",
    "PyBroker.pooled_training_lags"
   ],
   "note": "The columns of a pooled input without rows, input_data_fn and the frames passed to train_fn are not modelled."
  },
  {
   "property": "C94",
   "status": "proved",
   "theorems": [
    "PyBroker.model_input_cached",
    "PyBroker.model_input_on_bar",
    "PyBroker.model_input_no_future",
    "PyBroker.window_history",
    "PyBroker.input_given",
    "PyBroker.input_missing"
   ],
   "note": "model_input_cached covers every model, input_data_fn included; input_given says what such a function is given; model_input_on_bar and model_input_no_future cover models without one. Indicators are required to be causal for model_input_no_future."
  },
  {
   "property": "C95",
   "status": "proved",
   "theorems": [
    "PyBroker.run_bars",
    "PyBroker.run_accepted",
    "PyBroker.weekday_spec",
    "PyBroker.inTimes_spec"
   ],
   "note": "A DataSource is assumed to answer with rows of the symbols and dates it was asked for. The strings of between_time are given as times."
  },
  {
   "property": "C96",
   "status": "partial",
   "theorems": [
    "PyBroker.caller_frame_kept_partial",
    "PyBroker.caller_frame_stripped"
   ],
   "note": "The code refutes the full claim for a time zone aware frame with a symbol selector; proved for every other case."
  },
  {
   "property": "C97",
   "status": "proved",
   "theorems": [
    "PyBroker.turns_exact"
   ],
   "note": "Data without two bars of a symbol on one date (the code rejects the rest, C95); delays of at least one bar."
  },
  {
   "property": "C98",
   "status": "partial",
   "theorems": [
    "PyBroker.exit_on_last_bar_partial",
    "PyBroker.exit_on_last_bar",
    "PyBroker.exit_on_last_bar_warmup"
   ],
   "note": "Proved in full without warm-up, and with warm-up when each symbol has a turn on its last bar; the code refutes the rest (exit_on_last_bar_warmup)."
  },
  {
   "property": "C99",
   "status": "proved",
   "theorems": [
    "PyBroker.run_attempts",
    "PyBroker.run_history"
   ],
   "note": ""
  },
  {
   "property": "C100",
   "status": "partial",
   "theorems": [
    "PyBroker.no_lookahead_partial",
    "PyBroker.dropped_sees_ahead"
   ],
   "note": "Proved when symbols are fixed, or when each window has bars up to the date of the symbols it does not trade; with a symbol that a selector drops the code refutes the rest (dropped_sees_ahead). Data differ in values, not in which bars exist."
  },
  {
   "property": "C101",
   "status": "proved",
   "theorems": [
    "PyBroker.tuning_uses_training",
    "PyBroker.walk_uses_training",
    "PyBroker.split_uses_training"
   ],
   "note": "Indicators and models are part of the arbitrary user code."
  },
  {
   "property": "C102",
   "status": "proved",
   "theorems": [
    "PyBroker.tuned_best",
    "PyBroker.optimized_best"
   ],
   "note": "Optuna is modelled as an arbitrary sampler; its best trial is the first with the best value."
  },
  {
   "property": "C103",
   "status": "proved",
   "theorems": [
    "PyBroker.stitched_walkforward",
    "PyBroker.stitched_run",
    "PyBroker.split_tested"
   ],
   "note": "User code that keeps the values of earlier windows is excluded by hypothesis."
  },
  {
   "property": "C104",
   "status": "partial",
   "theorems": [
    "PyBroker.tuning_no_lookahead_partial",
    "PyBroker.tuning_sees_ahead"
   ],
   "note": "Proved when each window has bars up to the date of the symbols it does not trade; with a symbol that a selector drops the code refutes the rest (tuning_sees_ahead)."
  },
  {
   "property": "C105",
   "status": "proved",
   "theorems": [
    "PyBroker.split_no_lookahead"
   ],
   "note": "Data differ in values, not in which bars exist."
  },
  {
   "property": "C106",
   "status": "proved",
   "theorems": [
    "PyBroker.settings_iff",
    "PyBroker.limits_of_values"
   ],
   "note": ""
  },
  {
   "property": "C107",
   "status": "proved",
   "theorems": [
    "PyBroker.interval_indicator_on_bar",
    "PyBroker.interval_input_on_bar"
   ],
   "note": ""
  },
  {
   "property": "C108",
   "status": "proved",
   "theorems": [
    "PyBroker.interval_preds_per_bar",
    "PyBroker.interval_preds_rows"
   ],
   "note": "A model that is neither per bar nor row-wise gets the whole window (whole_window_sees_ahead)."
  },
  {
   "property": "C109",
   "status": "partial",
   "theorems": [
    "PyBroker.interval_reads_same",
    "PyBroker.interval_no_future",
    "PyBroker.interval_no_future_partial",
    "PyBroker.interval_preds_show_next_bar",
    "PyBroker.whole_window_sees_ahead"
   ],
   "note": "Proved in full for intervals of a number of bars; on calendar and duration intervals the code shows a bin as soon as the next bar is in another one (interval_preds_show_next_bar)."
  },
  {
   "property": "C110",
   "status": "proved",
   "theorems": [
    "PyBroker.interval_training_input",
    "PyBroker.interval_training_needs",
    "PyBroker.interval_train_predict_same"
   ],
   "note": "Windows are spans of time, as the walk-forward split makes them (C37)."
  },
  {
   "property": "C111",
   "status": "proved",
   "theorems": [
    "PyBroker.pooled_interval_training",
    "PyBroker.pooled_interval_needs"
   ],
   "note": "The input of a single symbol is that of C110. When no symbol has a training bar, a model that names its lag columns raises instead of getting an empty input (stated in the theorem)."
  },
  {
   "property": "C112",
   "status": "proved",
   "theorems": [
    "PyBroker.history_whole_shares",
    "PyBroker.run_whole_shares",
    "PyBroker.portfolio_keeps_fractions"
   ],
   "note": "A portfolio called directly takes fractional requests as they are (portfolio_keeps_fractions); the strategy truncates them first."
  },
  {
   "property": "C113",
   "status": "proved",
   "theorems": [
    "PyBroker.result_tables",
    "PyBroker.result_positions",
    "PyBroker.result_has_metrics",
    "PyBroker.result_totals",
    "PyBroker.result_drawdown",
    "PyBroker.result_stats",
    "PyBroker.nearestCent_unique",
    "PyBroker.rounding_hides_winners"
   ],
   "note": "Metrics are computed from the rounded tables, so a trade that gains less than half a cent is no winner (rounding_hides_winners)."
  },
  {
   "property": "C114",
   "status": "proved",
   "theorems": [
    "PyBroker.position_rows",
    "PyBroker.recording_is_silent",
    "PyBroker.rows_reconcile",
    "PyBroker.position_market_value_differs"
   ],
   "note": "Equity and market value of a short mean in this table what market value and equity mean in the portfolio's (position_market_value_differs)."
  },
  {
   "property": "C115",
   "status": "proved",
   "theorems": [
    "PyBroker.config_accepted_iff",
    "PyBroker.config_error_names",
    "PyBroker.built_valid",
    "PyBroker.call_accepted_iff",
    "PyBroker.call_runs",
    "PyBroker.backtest_runs",
    "PyBroker.call_limits"
   ],
   "note": "For call_runs train_size is at most 1; values above are accepted by the code and left out."
  },
  {
   "property": "C116",
   "status": "proved",
   "theorems": [
    "PyBroker.trades_explained",
    "PyBroker.run_explained",
    "PyBroker.fixed_symbols_in_play",
    "PyBroker.call_explained"
   ],
   "note": "A symbol that a selector drops is closed on one of its bars, possibly outside the test windows that trade it (C100); with fixed symbols there is no such order."
  },
  {
   "property": "C117",
   "status": "proved",
   "theorems": [
    "PyBroker.first_stop_exits"
   ],
   "note": ""
  },
  {
   "property": "C118",
   "status": "proved",
   "theorems": [
    "PyBroker.stop_rows",
    "PyBroker.stop_exits_recorded",
    "PyBroker.stop_row_level",
    "PyBroker.stop_table"
   ],
   "note": ""
  },
  {
   "property": "C119",
   "status": "proved",
   "theorems": [
    "PyBroker.orders_have_source"
   ],
   "note": "Slippage models of exits must make no positive price of a price of zero: that is how the code shows them a missing price."
  },
  {
   "property": "C120",
   "status": "proved",
   "theorems": [
    "PyBroker.fills_in_range",
    "PyBroker.call_fills_in_range"
   ],
   "note": ""
  },
  {
   "property": "C121",
   "status": "partial",
   "theorems": [
    "PyBroker.order_fees_partial",
    "PyBroker.fee_function_ignored"
   ],
   "note": "Without an amount a fee function is never called (fee_function_ignored); with one, every order is charged by the schedule."
  },
  {
   "property": "C122",
   "status": "proved",
   "theorems": [
    "PyBroker.cash_floor",
    "PyBroker.long_only_no_debt",
    "PyBroker.long_only_solvent",
    "PyBroker.long_only_bars",
    "PyBroker.run_cash_floor",
    "PyBroker.run_solvent",
    "PyBroker.call_cash_floor",
    "PyBroker.call_solvent"
   ],
   "note": "That fees and short losses do overdraw cash is shown by fees_overdraw and shorts_overdraw."
  },
  {
   "property": "C123",
   "status": "proved",
   "theorems": [
    "PyBroker.row_order",
    "PyBroker.call_row_order"
   ],
   "note": "Strategies without intervals; with intervals the order of the rows matters (rows_out_of_order, C127)."
  },
  {
   "property": "C124",
   "status": "proved",
   "theorems": [
    "PyBroker.call_used_rows",
    "PyBroker.call_wanted_rows"
   ],
   "note": ""
  },
  {
   "property": "C125",
   "status": "proved",
   "theorems": [
    "PyBroker.signals_table"
   ],
   "note": "Series and predictions are given; they must be as long as the data they are for."
  },
  {
   "property": "C126",
   "status": "partial",
   "theorems": [
    "PyBroker.names_accepted_iff",
    "PyBroker.names_at_fault",
    "PyBroker.names_unambiguous",
    "PyBroker.run_names_partial",
    "PyBroker.model_indicators_unchecked",
    "PyBroker.signals_overwritten"
   ],
   "note": "Missing: indicators that only a model uses are not checked (model_indicators_unchecked); the names that are checked are told apart."
  },
  {
   "property": "C127",
   "status": "partial",
   "theorems": [
    "PyBroker.interval_data_ok_iff",
    "PyBroker.interval_data_partial",
    "PyBroker.rows_out_of_order"
   ],
   "note": "Missing: a frame whose rows of a symbol are not in date order; it is compressed in the order of the frame (rows_out_of_order)."
  },
  {
   "property": "C128",
   "status": "partial",
   "theorems": [
    "PyBroker.interval_accepted_iff",
    "PyBroker.spacing_sound_partial",
    "PyBroker.spacing_complete",
    "PyBroker.whole_multiples_accepted",
    "PyBroker.spacing_any_order",
    "PyBroker.long_gaps_accepted",
    "PyBroker.uneven_gaps_accepted"
   ],
   "note": "Missing: the tolerance grows with the gap, so long gaps are accepted whatever they are (long_gaps_accepted), and so is every gap of one-second bars (uneven_gaps_accepted)."
  },
  {
   "property": "C129",
   "status": "partial",
   "theorems": [
    "PyBroker.columns_fixed_in_run",
    "PyBroker.columns_of_history_partial",
    "PyBroker.run_reads_history",
    "PyBroker.nested_run_unfreezes"
   ],
   "note": "Missing: a run inside a run, which unfreezes the columns of the outer one (nested_run_unfreezes)."
  },
  {
   "property": "C130",
   "status": "proved",
   "theorems": [
    "PyBroker.collect_ok_iff",
    "PyBroker.collect_names",
    "PyBroker.run_values_complete"
   ],
   "note": "The value is that of the definition registered last, not of the one the indicator was made with (redefined_hyperparam)."
  },
  {
   "property": "C131",
   "status": "partial",
   "theorems": [
    "PyBroker.shorter_data_partial",
    "PyBroker.shorter_prefix_partial",
    "PyBroker.pending_shows_next_bar"
   ],
   "note": "Missing: orders that are not due by the end of the shorter data; whether they are pending shows user code if the later bar exists (pending_shows_next_bar)."
  },
  {
   "property": "C132",
   "status": "partial",
   "theorems": [
    "PyBroker.context_read_partial",
    "PyBroker.context_read_no_data",
    "PyBroker.foreign_depends_on_reads",
    "PyBroker.kept_context_is_stale"
   ],
   "note": "Missing: whether a read about a symbol that has not traded raises or is empty depends on earlier lookups (foreign_depends_on_reads); a context read on a bar on which its function is not called (kept_context_is_stale). Model inputs and predictions are not part of this model."
  },
  {
   "property": "C133",
   "status": "proved",
   "theorems": [
    "PyBroker.tuned_window_indicators",
    "PyBroker.replay_indicators",
    "PyBroker.tuned_window_defined"
   ],
   "note": "Histories of cache and memo are those of IndReach (C28). The backtests of the trials are not part of this model."
  },
  {
   "property": "C134",
   "status": "partial",
   "theorems": [
    "PyBroker.set_order",
    "PyBroker.drop_order_partial",
    "PyBroker.fixed_drops_none",
    "PyBroker.fixed_set_order",
    "PyBroker.dropped_in_set_order"
   ],
   "note": "Missing: a window that drops several held symbols closes them, and numbers their orders and trades, in the order of a set (dropped_in_set_order)."
  },
  {
   "property": "C135",
   "status": "proved",
   "theorems": [
    "PyBroker.json_accepted_iff",
    "PyBroker.json_errors",
    "PyBroker.json_sections",
    "PyBroker.json_tables",
    "PyBroker.json_metrics",
    "PyBroker.json_metrics_table",
    "PyBroker.json_signals",
    "PyBroker.json_bootstrap",
    "PyBroker.json_strict",
    "PyBroker.optimize_json",
    "PyBroker.study_json",
    "PyBroker.window_reported"
   ],
   "note": "Metrics and signals are tables of scalars, bootstrap results can be converted (hypotheses of json_accepted_iff). The texts of dates are arbitrary."
  },
  {
   "property": "C136",
   "status": "proved",
   "theorems": [
    "PyBroker.reseed_forgets",
    "PyBroker.reseed_seeds",
    "PyBroker.search_reproducible",
    "PyBroker.study_reproducible",
    "PyBroker.window_searches",
    "PyBroker.search_values",
    "PyBroker.grid_once",
    "PyBroker.foreign_grid_refused",
    "PyBroker.direction_refused"
   ],
   "note": "What Optuna documents is a hypothesis (Documented); a score function does not raise."
  },
  {
   "property": "C137",
   "status": "proved",
   "theorems": [
    "PyBroker.compress_bars_ok_iff",
    "PyBroker.compress_bars_groups",
    "PyBroker.compress_bars_run",
    "PyBroker.is_valid_interval_iff",
    "PyBroker.weekly_bins",
    "PyBroker.calendar_spans",
    "PyBroker.duration_spans"
   ],
   "note": ""
  },
  {
   "property": "C138",
   "status": "proved",
   "theorems": [
    "PyBroker.compress_steps"
   ],
   "note": "Numpy's months and years are any functions with the hypothesis Months."
  },
  {
   "property": "C139",
   "status": "proved",
   "theorems": [
    "PyBroker.bootstrap_when",
    "PyBroker.bootstrap_seeded",
    "PyBroker.bootstrap_separate",
    "PyBroker.bootstrap_ends"
   ],
   "note": "bars_per_year is not 0 (see DESIGN.md); the functions exp and log are any with exp(log v) = v."
  },
  {
   "property": "C140",
   "status": "proved",
   "theorems": [
    "PyBroker.portfolio_row_per_bar",
    "PyBroker.account_seen",
    "PyBroker.account_shared",
    "PyBroker.rates_seen",
    "PyBroker.positions_seen"
   ],
   "note": "For runs whose stop ids are fresh and whose results carry positive shares, as in C72."
  },
  {
   "property": "C141",
   "status": "partial",
   "theorems": [
    "PyBroker.table_ends_run_partial",
    "PyBroker.last_row_fees",
    "PyBroker.total_fees_metric",
    "PyBroker.table_ends_before_run",
    "PyBroker.total_fees_short"
   ],
   "note": "The code falsifies the full claim: the exits forced on the last bar come after its row is captured."
  },
  {
   "property": "C142",
   "status": "partial",
   "theorems": [
    "PyBroker.builtin_length",
    "PyBroker.builtin_no_lookahead_partial",
    "PyBroker.builtin_columns",
    "PyBroker.builtin_refused",
    "PyBroker.builtin_range",
    "PyBroker.builtin_field",
    "PyBroker.builtin_rolling",
    "PyBroker.builtin_atr",
    "PyBroker.builtin_trend_local",
    "PyBroker.builtin_flow",
    "PyBroker.builtin_volume_index",
    "PyBroker.adx_not_causal",
    "PyBroker.priceVolumeFit_no_volume"
   ],
   "note": "The code falsifies the full claim for adx on few bars and for four volume indicators with lookback 1 before the first volume (C53). The ranges of macd with smoothing and of delta_on_balance_volume are [-100, 100], not the documented ones (C77)."
  },
  {
   "property": "C143",
   "status": "partial",
   "theorems": [
    "PyBroker.alpaca_asks",
    "PyBroker.period_asked",
    "PyBroker.yf_rows",
    "PyBroker.yf_alone_partial",
    "PyBroker.yf_together_partial",
    "PyBroker.yf_depends",
    "PyBroker.yf_end_missing",
    "PyBroker.yf_empty_refused",
    "PyBroker.ak_alone",
    "PyBroker.ak_fallback",
    "PyBroker.ak_names",
    "PyBroker.ak_rows",
    "PyBroker.ak_same_code",
    "PyBroker.long_rows"
   ],
   "note": "The code falsifies the full claim for YFinance asked for symbols with different dates, on the end date and for empty answers with columns, and for AKShare's symbols with one code on two exchanges."
  },
  {
   "property": "C144",
   "status": "partial",
   "theorems": [
    "PyBroker.RunSetup.run_in_unit_partial",
    "PyBroker.RunSetup.results_in_unit_partial",
    "PyBroker.RunSetup.error_in_unit_partial",
    "PyBroker.Slippage.slippage_in_unit",
    "PyBroker.rounding_depends_on_unit"
   ],
   "note": "The code falsifies the full claim when fill prices are rounded to cents, which is the default; without rounding it is proved in full."
  },
  {
   "property": "C145",
   "status": "partial",
   "theorems": [
    "PyBroker.metrics_in_unit_partial",
    "PyBroker.trade_stats_in_unit",
    "PyBroker.profit_factor_side",
    "PyBroker.profit_factor_depends_on_unit",
    "PyBroker.bootstrap_in_unit_partial",
    "PyBroker.RunSetup.metrics_in_unit_partial",
    "PyBroker.cents_depend_on_unit"
   ],
   "note": "The code falsifies the claim for the value of the profit factor and its intervals, to whose sums it adds 1e-10, and for results rounded to cents; everything else is proved."
  },
  {
   "property": "C146",
   "status": "partial",
   "theorems": [
    "PyBroker.annualised",
    "PyBroker.annual_return_partial",
    "PyBroker.reported_annual_return_partial",
    "PyBroker.annual_return_nan",
    "PyBroker.sharpe_volatility"
   ],
   "note": "The code falsifies the last sentence: annual_return_pct is NaN after a realised loss of more than the initial market value unless bars_per_year is a multiple of the number of intervals. The rest is proved."
  },
  {
   "property": "C147",
   "status": "partial",
   "theorems": [
    "PyBroker.caches_managed",
    "PyBroker.value_kept",
    "PyBroker.kinds_apart",
    "PyBroker.namespaces_apart",
    "PyBroker.clear_unseen",
    "PyBroker.clear_caches_halfway"
   ],
   "note": "The code falsifies the last sentence for processes that run at the same time: a value held in memory by one survives a clear by another. For processes in turn everything is proved."
  },
  {
   "property": "C148",
   "status": "partial",
   "theorems": [
    "PyBroker.config_valid",
    "PyBroker.config_last",
    "PyBroker.nested_alone",
    "PyBroker.processes_any_schedule",
    "PyBroker.threads_any_schedule",
    "PyBroker.parallel_as_in_turn",
    "PyBroker.windows_as_in_turn_partial",
    "PyBroker.suppress_any_schedule",
    "PyBroker.generator_breaks_windows",
    "PyBroker.writes_not_shared",
    "PyBroker.pool_forgets_backend"
   ],
   "note": "The code falsifies the claim for walkforward_optimize with a pool that returns a generator, which set_parallel accepts, and for tasks that write the scope. The rest is proved; joblib's own behaviour is assumed."
  },
  {
   "property": "C149",
   "status": "proved",
   "theorems": [
    "PyBroker.RunSetup.run_redated",
    "PyBroker.RunSetup.results_redated",
    "PyBroker.RunSetup.error_redated",
    "PyBroker.redated_exists",
    "PyBroker.metrics_redated"
   ],
   "note": "For whole runs as modelled for C119 (no training of models, no signals); time-of-day and day filters, which read the calendar, act on the data before the run."
  },
  {
   "property": "C150",
   "status": "partial",
   "theorems": [
    "PyBroker.model_accepts_iff",
    "PyBroker.model_registered",
    "PyBroker.model_others_kept",
    "PyBroker.model_last",
    "PyBroker.refused_cannot_take",
    "PyBroker.lagged_called_partial",
    "PyBroker.unlagged_keywords",
    "PyBroker.train_result",
    "PyBroker.lagged_not_callable",
    "PyBroker.lag_cols_text_split"
   ],
   "note": "The code falsifies the claim that Python accepts the training call: a function whose first three parameters are named lag_train or lag_test is registered and cannot be called (lagged_not_callable)."
  },
  {
   "property": "C151",
   "status": "partial",
   "theorems": [
    "PyBroker.no_lookahead_models_partial",
    "PyBroker.training_sees_ahead",
    "PyBroker.pooled_training_sees_ahead",
    "PyBroker.model_window_sees_ahead",
    "PyBroker.input_function_sees_ahead"
   ],
   "note": "Proved for models of a symbol and pooled models, under the condition of C100 on dropped symbols, for training functions that do not use the test data they are given, input functions that work row by row, and models that predict row by row or are per_bar. The code falsifies the claim without these: input functions are given the whole test window, also for per_bar models (input_function_sees_ahead), training functions are given the test data (training_sees_ahead, pooled_training_sees_ahead) and models that are not per_bar the whole test window (model_window_sees_ahead)."
  },
  {
   "property": "C152",
   "status": "proved",
   "theorems": [
    "PyBroker.sessions_kept"
   ],
   "note": "A session is changed in place; assigning another dict to ctx.session is not modelled."
  },
  {
   "property": "C153",
   "status": "partial",
   "theorems": [
    "PyBroker.stateful_run",
    "PyBroker.no_lookahead_stateful_partial",
    "PyBroker.no_lookahead_models_stateful_partial"
   ],
   "note": "Missing what C100 and C151 lack: a window that drops a symbol whose first bar in the window is later (dropped_sees_ahead), and with models what C151 names."
  },
  {
   "property": "C154",
   "status": "proved",
   "theorems": [
    "PyBroker.RunSetup.run_renamed",
    "PyBroker.RunSetup.results_renamed",
    "PyBroker.RunSetup.error_renamed",
    "PyBroker.renamed_exists",
    "PyBroker.order_of_names_decides"
   ],
   "note": "For the whole run of C100. Per-symbol position bars of a result are a separate model and are not included."
  },
  {
   "property": "C155",
   "status": "proved",
   "theorems": [
    "PyBroker.RunSetup.run_alongside"
   ],
   "note": "For the whole run of C100, executions with fixed symbols. Symbol selectors are left out: they are shown the data and may pick otherwise."
  },
  {
   "property": "C156",
   "status": "proved",
   "theorems": [
    "PyBroker.deviation_best_fit",
    "PyBroker.trend_best_fit",
    "PyBroker.trend_weights",
    "PyBroker.bestFit_iff",
    "PyBroker.bestFit_exists"
   ],
   "note": "Exact numbers in place of floats. bestFit_exists shows that the fit the theorems speak of exists for each window."
  },
  {
   "property": "C157",
   "status": "proved",
   "theorems": [
    "PyBroker.price_volume_slope",
    "PyBroker.detrended_rsi",
    "PyBroker.vwma_ratio",
    "PyBroker.on_balance_volume",
    "PyBroker.delta_on_balance_volume",
    "PyBroker.volume_momentum",
    "PyBroker.volume_index",
    "PyBroker.close_minus_ma",
    "PyBroker.price_change_oscillator",
    "PyBroker.bestLine_exists"
   ],
   "note": "Exact numbers in place of floats.."
  },
  {
   "property": "C158",
   "status": "proved",
   "theorems": [
    "PyBroker.adx_average",
    "PyBroker.stochastic_position",
    "PyBroker.stochastic_rsi_position",
    "PyBroker.macd_averages",
    "PyBroker.price_intensity",
    "PyBroker.flow_window"
   ],
   "note": "Exact numbers in place of floats. stochastic_rsi for an RSI length of 2 or more: with 1 the code divides by zero. Flows for bars whose window starts at or after the first volume."
  },
  {
   "property": "C159",
   "status": "proved",
   "theorems": [
    "PyBroker.given_history",
    "PyBroker.chain_history",
    "PyBroker.chain_records",
    "PyBroker.chain_books"
   ],
   "note": "The portfolio of the caller is taken to have the configuration of the strategy. No two stops of the chain share an id (the counter is global to the process). Orders pending at the end of a run are not part of its portfolio and are not placed by the next."
  },
  {
   "property": "C160",
   "status": "partial",
   "theorems": [
    "PyBroker.train_only_partial",
    "PyBroker.rules_run",
    "PyBroker.train_only_sells"
   ],
   "note": "The code falsifies the full claim: positions of a given portfolio in symbols that the strategy does not have are closed, and the result does not show it (train_only_sells). Proved for a new portfolio and for one that holds symbols of every window only."
  },
  {
   "property": "C161",
   "status": "proved",
   "theorems": [
    "PyBroker.reactivity_state",
    "PyBroker.reactivity_flat",
    "PyBroker.laguerre_filter",
    "PyBroker.aroon_difference"
   ],
   "note": "Exact numbers in place of floats; the logarithm, the root and the normal distribution function are parameters. A volume series without volume is not covered."
  },
  {
   "property": "C162",
   "status": "partial",
   "theorems": [
    "PyBroker.optimize_refuses",
    "PyBroker.pretrained_models",
    "PyBroker.seen_given",
    "PyBroker.pretrained_predictions",
    "PyBroker.pretrained_study",
    "PyBroker.pretrained_no_lookahead_partial",
    "PyBroker.pretrained_split_partial"
   ],
   "note": "Missing, as in C151: models that do not predict row by row see later bars of their window (model_window_sees_ahead), and so do input functions (input_function_sees_ahead). For selectors, what C100 leaves out."
  },
  {
   "property": "C163",
   "status": "proved",
   "theorems": [
    "PyBroker.pooled_model_shared",
    "PyBroker.pooled_model_trained"
   ],
   "note": "pooled_model_trained is for models without lags; the lag features of a pooled model are C93's pooled_training_lags."
  },
  {
   "property": "C164",
   "status": "partial",
   "theorems": [
    "PyBroker.stock_split_partial",
    "PyBroker.cut_order_split_differs",
    "PyBroker.fee_per_share_split_differs"
   ],
   "note": "Proved for histories in which no order is cut to the buying power (an order may be refused by its limit, the position mode or the cap) and fees are not per share; the two witnesses show that the claim is false without these hypotheses."
  },
  {
   "property": "C165",
   "status": "proved",
   "theorems": [
    "PyBroker.direct_training",
    "PyBroker.direct_history",
    "PyBroker.direct_gap_differs",
    "PyBroker.direct_order_needed"
   ],
   "note": "Models of one symbol on the base timeframe. `direct_gap_differs` and `direct_order_needed` delimit the claim: the lags of the first test bars skip a gap between the frames, and the training frame has to be the earlier one."
  },
  {
   "property": "C166",
   "status": "partial",
   "theorems": [
    "PyBroker.intervals_nested_partial",
    "PyBroker.normalCdf_mono",
    "PyBroker.many_samples_inverted"
   ],
   "note": "Proved for up to 32768 bootstrap samples (the default is 10000), over the reals with the code's own approximations. `many_samples_inverted` shows that the claim is false for 131072 samples."
  },
  {
   "property": "C167",
   "status": "partial",
   "theorems": [
    "PyBroker.quantile_symm",
    "PyBroker.quantile_increasing_partial",
    "PyBroker.quantile_median_inverted",
    "PyBroker.quantile_zero_inverted"
   ],
   "note": "Increasing on each side of the median, and up to 2.4e-7 across it. The witnesses show that the claim is false across the median and at 0."
  },
  {
   "property": "C168",
   "status": "proved",
   "theorems": [
    "PyBroker.ulcer_drops",
    "PyBroker.ulcer_period_drops",
    "PyBroker.ulcer_range",
    "PyBroker.ulcer_full_window_zero"
   ],
   "note": "Over any ordered field with an arbitrary root; the range over the reals. `ulcer_full_window_zero`: with as many values as the period the index is 0 although the values fall, as documented in a comment of `upi`."
  },
  {
   "property": "C169",
   "status": "partial",
   "theorems": [
    "PyBroker.cancel_one_stop",
    "PyBroker.cancel_all_stops",
    "PyBroker.cancel_type_stops_partial",
    "PyBroker.cancel_type_leaves_second"
   ],
   "note": "By id, and all of a symbol or entry: proved. By type: proved when no order attaches two stops of the same type, which holds for the orders of strategies (C66, `result_exact`); `cancel_type_leaves_second` shows that it fails for an entry with two, made by calling the portfolio."
  },
  {
   "property": "C170",
   "status": "partial",
   "theorems": [
    "PyBroker.indicator_amounts",
    "PyBroker.indicators_unit_free_partial",
    "PyBroker.indicators_volume_free_partial",
    "PyBroker.intensity_amount",
    "PyBroker.price_intensity_unit",
    "PyBroker.deviation_unit_partial",
    "PyBroker.returns_unit",
    "PyBroker.stochastic_unit_close",
    "PyBroker.adx_unit_close",
    "PyBroker.stochastic_unit_shown"
   ],
   "note": "Exact for the indicators of `indicators_unit_free_partial`, for price_intensity on bars with a range of at least 1e-60 and for deviations where neither is cut to 0. stochastic and adx add 1e-60 or 1e-10 to an amount of money and so depend on the unit (`stochastic_unit_shown`); the difference is bounded by that number over the least range of a bar (`stochastic_unit_close`, `adx_unit_close`). Missing: stochastic_rsi, detrended_rsi and macd, which also add such a number; and price_volume_fit in another unit of volume, which takes the log of volume plus 1."
  },
  {
   "property": "C171",
   "status": "partial",
   "theorems": [
    "PyBroker.Log.backtest_bar",
    "PyBroker.Log.indicator_bar",
    "PyBroker.Log.hidden_bar",
    "PyBroker.Log.toggled_bar",
    "PyBroker.Log.backtests_bars",
    "PyBroker.Log.bars_any_schedule_partial",
    "PyBroker.Log.bars_alone",
    "PyBroker.Log.stale_bar",
    "PyBroker.Log.bars_can_crash"
   ],
   "note": "The schedule theorems need all threads but one silenced, or bars off. Missing, because false of the code: two threads that both show progress (trials with verbose on a threading backend) can raise (`bars_can_crash`); a bar hidden at its last date stays in the logger and is drawn by a later backtest that began hidden (`stale_bar`)."
  },
  {
   "property": "C172",
   "status": "partial",
   "theorems": [
    "PyBroker.larger_account_partial",
    "PyBroker.cut_order_larger_differs",
    "PyBroker.fee_per_order_larger_differs"
   ],
   "note": "Proved for histories in which no order is cut to the buying power; an order that is cut is cut to whole shares (or 1e-9 of one), which does not scale (`cut_order_larger_differs`). Fees per order do not scale either (`fee_per_order_larger_differs`)."
  },
  {
   "property": "C173",
   "status": "proved",
   "theorems": [
    "PyBroker.attach_hyperparams",
    "PyBroker.hyperparam_read",
    "PyBroker.attached_declared",
    "PyBroker.param_read",
    "PyBroker.param_set"
   ],
   "note": "Of add_execution only the hyperparameters are part of this model; its checks of symbols are C64."
  },
  {
   "property": "C174",
   "status": "partial",
   "theorems": [
    "PyBroker.slice_keeps_bars",
    "PyBroker.slice_twice",
    "PyBroker.slice_compressed",
    "PyBroker.compressed_bars",
    "PyBroker.compressed_aligned",
    "PyBroker.slice_columns_partial",
    "PyBroker.slice_by_no_date_loses_columns"
   ],
   "note": "The bars are as stated; that the columns stay the same is false of the code when no date is given, and proved for all other lists of dates."
  },
  {
   "property": "C175",
   "status": "proved",
   "theorems": [
    "PyBroker.bars_frame",
    "PyBroker.bars_made_iff",
    "PyBroker.bars_attribute"
   ],
   "note": "That pandas refuses arrays of different lengths and that Python refuses a keyword that is given twice is part of the model."
  }
 ]
}