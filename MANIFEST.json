{
 "claims": [
  {
   "property": "C01",
   "status": "proved",
   "theorems": [
    "TS.C01_library",
    "TS.C01_streaming_eq_stepping"
   ],
   "note": "Equivalence: the streamed call succeeds with a result iff stepping does and has the same types; for all operators whose output structure is a function of input and state structure."
  },
  {
   "property": "C02",
   "status": "proved",
   "theorems": [
    "TS.C02_chunks",
    "TS.C02_chunks_library",
    "TS.C02_library",
    "TS.C02_chunked_resumption"
   ],
   "note": "Equivalence of the whole call with the two chunked calls."
  },
  {
   "property": "C03",
   "status": "proved",
   "theorems": [
    "TS.C03_library",
    "TS.C03_causality"
   ],
   "note": ""
  },
  {
   "property": "C04",
   "status": "proved",
   "theorems": [
    "TS.C04_size_mismatch",
    "TS.C04_output_length"
   ],
   "note": ""
  },
  {
   "property": "C05",
   "status": "proved",
   "theorems": [
    "TS.C05_state_types",
    "TS.C05_type_change_rejected",
    "TS.C05_type_change_error"
   ],
   "note": ""
  },
  {
   "property": "C06",
   "status": "proved",
   "theorems": [
    "TS.C06_step_fresh",
    "TS.C06_step_echo",
    "TS.C06_stream_fresh",
    "TS.C06_stream_echo",
    "TS.C06_run_echo",
    "TS.C06_meta_preserve",
    "TS.C06_shipped_composites",
    "TS.C06_surplus_input_is_state"
   ],
   "note": "For everything in the inductive catalogue Lib (all shipped operators and all Compose/Join/Map/FFill nestings), single steps and series; inputs of the declared structure."
  },
  {
   "property": "C07",
   "status": "proved",
   "theorems": [
    "TS.C07_map_fn_total",
    "TS.C07_map_fn_exact",
    "TS.C07_map_fn_id",
    "TS.C07_map_fn_comp",
    "TS.C07_map_fn_zip",
    "TS.C07_map_fn_cut",
    "TS.C07_map_fn_keys",
    "TS.C07_map_fn_kinds"
   ],
   "note": ""
  },
  {
   "property": "C08",
   "status": "proved",
   "theorems": [
    "TS.C08_flatten_order",
    "TS.C08_flatten_map_fn",
    "TS.C08_flatten_inj"
   ],
   "note": ""
  },
  {
   "property": "C09",
   "status": "proved",
   "theorems": [
    "TS.C09_any_value",
    "TS.C09_any_nan",
    "TS.C09_any_value_nan",
    "TS.C09_any_value_exact"
   ],
   "note": ""
  },
  {
   "property": "C10",
   "status": "proved",
   "theorems": [
    "TS.C10_compose_pipeline_resume",
    "TS.C10_compose_pipeline",
    "TS.C10_compose_pipeline_library"
   ],
   "note": ""
  },
  {
   "property": "C11",
   "status": "proved",
   "theorems": [
    "TS.C11_compose_assoc_step",
    "TS.C11_compose_assoc_stream",
    "TS.C11_compose_single_step",
    "TS.C11_compose_single_stream",
    "TS.C11_compose_empty"
   ],
   "note": ""
  },
  {
   "property": "C12",
   "status": "proved",
   "theorems": [
    "TS.C12_join_bank",
    "TS.C12_join_bank_library",
    "TS.C12_factory_bank"
   ],
   "note": ""
  },
  {
   "property": "C13",
   "status": "proved",
   "theorems": [
    "TS.C13_join_step",
    "TS.C13_join_stream",
    "TS.C13_join_one_per_operator",
    "TS.C13_factory_step",
    "TS.C13_join_truncates"
   ],
   "note": ""
  },
  {
   "property": "C14",
   "status": "proved",
   "theorems": [
    "TS.C14_map_columns_resume",
    "TS.C14_map_columns",
    "TS.C14_map_shares_initial_state",
    "TS.C14_map_typed"
   ],
   "note": ""
  },
  {
   "property": "C15",
   "status": "proved",
   "theorems": [
    "TS.C15_ffill_resume",
    "TS.C15_ffill",
    "TS.C15_ffill_streams"
   ],
   "note": ""
  },
  {
   "property": "C16",
   "status": "proved",
   "theorems": [
    "TS.C16_ffill_rejects_singleton_state",
    "TS.C16_ffill_streams",
    "TS.C16_ffill_iff",
    "TS.C16_ffill_rejects_single_chain",
    "TS.C16_ffill_map_fails",
    "TS.C16_ffill_autoCorrelation_fails"
   ],
   "note": "Exact condition, both directions (C16_ffill_iff), for operators that are sane, uniform and steady on a float signature."
  },
  {
   "property": "C17",
   "status": "proved",
   "theorems": [
    "TS.C17_lag",
    "TS.C17_lag_int",
    "TS.C17_lag_bool",
    "TS.C17_lag_streams"
   ],
   "note": ""
  },
  {
   "property": "C18",
   "status": "proved",
   "theorems": [
    "TS.C18_setDuring",
    "TS.C18_setDuring_int",
    "TS.C18_setDuring_split",
    "TS.C18_setDuring_bool",
    "TS.C18_setDuring_accepts"
   ],
   "note": ""
  },
  {
   "property": "C19",
   "status": "proved",
   "theorems": [
    "TS.C19_momentum_streams",
    "TS.C19_momentum",
    "TS.C19_momentum_sum"
   ],
   "note": ""
  },
  {
   "property": "C20",
   "status": "proved",
   "theorems": [
    "TS.C20_global_min_streams",
    "TS.C20_global_max_streams",
    "TS.C20_global_min",
    "TS.C20_global_max",
    "TS.C20_global_min_resumed",
    "TS.C20_global_min_int",
    "TS.C20_global_max_int",
    "TS.C20_global_min_infinite",
    "TS.C20_global_max_infinite"
   ],
   "note": ""
  },
  {
   "property": "C21",
   "status": "proved",
   "theorems": [
    "TS.C21_local_min_streams",
    "TS.C21_local_max_streams",
    "TS.C21_local_min",
    "TS.C21_local_max",
    "TS.C21_local_min_int",
    "TS.C21_local_max_int",
    "TS.C21_local_min_infinite",
    "TS.C21_local_max_infinite"
   ],
   "note": ""
  },
  {
   "property": "C22",
   "status": "proved",
   "theorems": [
    "TS.C22_automaton_step",
    "TS.C22_automaton_total",
    "TS.C22_automaton_run"
   ],
   "note": ""
  },
  {
   "property": "C23",
   "status": "proved",
   "theorems": [
    "TS.C23_broadcasting",
    "TS.C23_arithmetic_scalar",
    "TS.C23_arithmetic",
    "TS.C23_arithmetic_int",
    "TS.C23_indicators",
    "TS.C23_indicators_int",
    "TS.C23_exclusive",
    "TS.C23_identity",
    "TS.C23_fork",
    "TS.C23_select"
   ],
   "note": ""
  },
  {
   "property": "C24",
   "status": "proved",
   "theorems": [
    "TS.C24_select_tuple_fails",
    "TS.C24_downstream_rejects",
    "TS.C24_select_list",
    "TS.C24_select_iff"
   ],
   "note": ""
  },
  {
   "property": "C25",
   "status": "proved",
   "theorems": [
    "TS.C25_sma",
    "TS.C25_sma_at"
   ],
   "note": ""
  },
  {
   "property": "C26",
   "status": "proved",
   "theorems": [
    "TS.C26_ema",
    "TS.C26_ema_at"
   ],
   "note": ""
  },
  {
   "property": "C27",
   "status": "proved",
   "theorems": [
    "TS.C27_rma",
    "TS.C27_rma_at"
   ],
   "note": ""
  },
  {
   "property": "C28",
   "status": "proved",
   "theorems": [
    "TS.C28_sma",
    "TS.C28_ema",
    "TS.C28_rma",
    "TS.C28_constant"
   ],
   "note": ""
  },
  {
   "property": "C29",
   "status": "proved",
   "theorems": [
    "TS.C29_msd_streams",
    "TS.C29_msd",
    "TS.C29_msd_zero",
    "TS.C29_msd_shift",
    "TS.C29_msd_scale"
   ],
   "note": ""
  },
  {
   "property": "C30",
   "status": "proved",
   "theorems": [
    "TS.C30_bollinger_streams",
    "TS.C30_bollinger_scalar",
    "TS.C30_bollinger"
   ],
   "note": ""
  },
  {
   "property": "C31",
   "status": "proved",
   "theorems": [
    "TS.C31_macd",
    "TS.C31_macd_at"
   ],
   "note": ""
  },
  {
   "property": "C32",
   "status": "proved",
   "theorems": [
    "TS.C32_crossover",
    "TS.C32_crossover_at"
   ],
   "note": ""
  },
  {
   "property": "C33",
   "status": "proved",
   "theorems": [
    "TS.C33_zero_crossover_streams",
    "TS.C33_zero_crossover"
   ],
   "note": ""
  },
  {
   "property": "C34",
   "status": "proved",
   "theorems": [
    "TS.C34_sma_streams",
    "TS.C34_macd_streams",
    "TS.C34_sma",
    "TS.C34_macd"
   ],
   "note": ""
  },
  {
   "property": "C35",
   "status": "proved",
   "theorems": [
    "TS.C35_genuine_iff",
    "TS.C35_before_signal",
    "TS.C35_first_value_signals"
   ],
   "note": ""
  },
  {
   "property": "C36",
   "status": "proved",
   "theorems": [
    "TS.C36_rsi_streams",
    "TS.C36_rsi",
    "TS.C36_rsi_prices",
    "TS.C36_period_one",
    "TS.C36_pause"
   ],
   "note": ""
  },
  {
   "property": "C37",
   "status": "proved",
   "theorems": [
    "TS.C37_compound",
    "TS.C37_return_streams",
    "TS.C37_logReturn_streams",
    "TS.C37_return",
    "TS.C37_logReturn",
    "TS.C37_log_one_add",
    "TS.C37_telescope"
   ],
   "note": ""
  },
  {
   "property": "C38",
   "status": "proved",
   "theorems": [
    "TS.C38_genuine_iff",
    "TS.C38_volatility_streams",
    "TS.C38_volatility",
    "TS.C38_genuine",
    "TS.C38_warmup_zeros"
   ],
   "note": ""
  },
  {
   "property": "C39",
   "status": "proved",
   "theorems": [
    "TS.C39_sharpe_streams",
    "TS.C39_sharpe"
   ],
   "note": ""
  },
  {
   "property": "C40",
   "status": "proved",
   "theorems": [
    "TS.C40_skewness",
    "TS.C40_skewness_affine",
    "TS.C40_skewness_bound",
    "TS.C40_skewness_attained"
   ],
   "note": ""
  },
  {
   "property": "C41",
   "status": "proved",
   "theorems": [
    "TS.C41_correlation_streams",
    "TS.C41_correlation_scalar",
    "TS.C41_correlation",
    "TS.C41_correlation_symm",
    "TS.C41_correlation_self"
   ],
   "note": ""
  },
  {
   "property": "C42",
   "status": "proved",
   "theorems": [
    "TS.C42_cross_streams",
    "TS.C42_cross",
    "TS.C42_auto_streams",
    "TS.C42_auto",
    "TS.C42_cross_scalar",
    "TS.C42_auto_scalar"
   ],
   "note": ""
  },
  {
   "property": "C43",
   "status": "proved",
   "theorems": [
    "TS.C43_tensors_streams",
    "TS.C43_tensors",
    "TS.C43_tensors_above",
    "TS.C43_one_number",
    "TS.C43_atr_streams",
    "TS.C43_atr",
    "TS.C43_first_range",
    "TS.C43_mixed_streams",
    "TS.C43_mixed_iff"
   ],
   "note": ""
  },
  {
   "property": "C44",
   "status": "proved",
   "theorems": [
    "TS.C44_supertrend_fails",
    "TS.C44_small_gaps",
    "TS.C44_supertrend_iff"
   ],
   "note": ""
  },
  {
   "property": "C45",
   "status": "proved",
   "theorems": [
    "TS.C45_supertrend_streams",
    "TS.C45_supertrend"
   ],
   "note": ""
  },
  {
   "property": "C46",
   "status": "proved",
   "theorems": [
    "TS.C46_heikinAshi_streams",
    "TS.C46_heikinAshi"
   ],
   "note": ""
  },
  {
   "property": "C47",
   "status": "proved",
   "theorems": [
    "TS.C47_drawdown_streams",
    "TS.C47_drawdown"
   ],
   "note": ""
  },
  {
   "property": "C48",
   "status": "proved",
   "theorems": [
    "TS.C48_details",
    "TS.C48_drawdown_details",
    "TS.C48_minimum",
    "TS.C48_runs"
   ],
   "note": ""
  },
  {
   "property": "C49",
   "status": "proved",
   "theorems": [
    "TS.C49_counters"
   ],
   "note": ""
  },
  {
   "property": "C50",
   "status": "proved",
   "theorems": [
    "TS.C50_discipline_iff",
    "TS.C50_position",
    "TS.C50_flat",
    "TS.C50_discipline",
    "TS.C50_two_buys"
   ],
   "note": ""
  },
  {
   "property": "C51",
   "status": "proved",
   "theorems": [
    "TS.C51_duration"
   ],
   "note": ""
  },
  {
   "property": "C52",
   "status": "proved",
   "theorems": [
    "TS.C52_sma",
    "TS.C52_msd",
    "TS.C52_bollinger",
    "TS.C52_crossover",
    "TS.C52_lag",
    "TS.C52_momentum",
    "TS.C52_local_min",
    "TS.C52_local_max",
    "TS.C52_return",
    "TS.C52_logReturn",
    "TS.C52_volatility",
    "TS.C52_sharpe",
    "TS.C52_skewness",
    "TS.C52_correlation",
    "TS.C52_cross",
    "TS.C52_auto"
   ],
   "note": ""
  },
  {
   "property": "C53",
   "status": "proved",
   "theorems": [
    "TS.C53_sma",
    "TS.C53_ema",
    "TS.C53_rma",
    "TS.C53_msd",
    "TS.C53_crossover",
    "TS.C53_lag",
    "TS.C53_momentum",
    "TS.C53_bollinger",
    "TS.C53_macd",
    "TS.C53_correlation",
    "TS.C53_zero_crossover",
    "TS.C53_sma_signal",
    "TS.C53_macd_signal"
   ],
   "note": ""
  },
  {
   "property": "C54",
   "status": "proved",
   "theorems": [
    "TS.C54_filter_with_mask",
    "TS.C54_filter_same_length",
    "TS.C54_map_consecutive",
    "TS.C54_roll",
    "TS.C54_shift"
   ],
   "note": ""
  },
  {
   "property": "C55",
   "status": "proved",
   "theorems": [
    "TS.C55_transpose",
    "TS.C55_missing_column"
   ],
   "note": ""
  },
  {
   "property": "C56",
   "status": "proved",
   "theorems": [
    "TS.C56_typed_streams",
    "TS.C56_typed_chunks",
    "TS.C56_typed_steps",
    "TS.C56_typed_initial_state",
    "TS.C56_momentum_typed",
    "TS.C56_smaCrossover_typed",
    "TS.C56_volatility_typed",
    "TS.C56_smaSignal_typed",
    "TS.C56_macdSignal_typed"
   ],
   "note": ""
  },
  {
   "property": "C57",
   "status": "proved",
   "theorems": [
    "TS.C57_ffill_sma",
    "TS.C57_ffill_msd",
    "TS.C57_ffill_ema",
    "TS.C57_ffill_rma",
    "TS.C57_ffill_lag",
    "TS.C57_ffill_momentum",
    "TS.C57_ffill_crossover",
    "TS.C57_ffill_globalMin",
    "TS.C57_ffill_globalMax",
    "TS.C57_ffill_localMin",
    "TS.C57_ffill_localMax",
    "TS.C57_ffill_return",
    "TS.C57_ffill_logReturn",
    "TS.C57_ffill_volatility",
    "TS.C57_ffill_skewness",
    "TS.C57_ffill_rsi",
    "TS.C57_ffill_correlation",
    "TS.C57_ffill_atr",
    "TS.C57_ffill_heikinAshi",
    "TS.C57_ffill_drawdown",
    "TS.C57_ffill_bollinger",
    "TS.C57_ffill_sharpe",
    "TS.C57_ffill_sharpe_riskless",
    "TS.C57_ffill_crossCorrelation",
    "TS.C57_ffill_zeroCrossover",
    "TS.C57_ffill_macd",
    "TS.C57_ffill_smaSignal",
    "TS.C57_ffill_macdSignal",
    "TS.C57_ffill_atr_tensors"
   ],
   "note": ""
  },
  {
   "property": "C58",
   "status": "proved",
   "theorems": [
    "TS.C58_sma",
    "TS.C58_ema",
    "TS.C58_rma",
    "TS.C58_macd",
    "TS.C58_crossover",
    "TS.C58_lag",
    "TS.C58_momentum",
    "TS.C58_globalMin",
    "TS.C58_globalMax",
    "TS.C58_localMin",
    "TS.C58_localMax",
    "TS.C58_atr",
    "TS.C58_heikinAshi",
    "TS.C58_supertrend",
    "TS.C58_return",
    "TS.C58_logReturn",
    "TS.C58_volatility",
    "TS.C58_rsi",
    "TS.C58_zeroCrossover",
    "TS.C58_crossoverSignal",
    "TS.C58_macdSignal",
    "TS.C58_msd",
    "TS.C58_bollinger",
    "TS.C58_sharpe",
    "TS.C58_skewness",
    "TS.C58_correlation",
    "TS.C58_crossCorrelation",
    "TS.C58_autoCorrelation",
    "TS.C58_riskRatio"
   ],
   "note": ""
  },
  {
   "property": "C59",
   "status": "proved",
   "theorems": [
    "TS.C59_drawdown_unit",
    "TS.C59_drawdown_losses",
    "TS.C59_drawdown_same",
    "TS.C59_drawdown_iff"
   ],
   "note": ""
  },
  {
   "property": "C60",
   "status": "proved",
   "theorems": [
    "TS.C60_sma",
    "TS.C60_ema",
    "TS.C60_rma",
    "TS.C60_macd",
    "TS.C60_crossover",
    "TS.C60_lag",
    "TS.C60_momentum",
    "TS.C60_global",
    "TS.C60_local",
    "TS.C60_msd",
    "TS.C60_bollinger",
    "TS.C60_sharpe",
    "TS.C60_skewness",
    "TS.C60_correlation",
    "TS.C60_atr",
    "TS.C60_heikinAshi",
    "TS.C60_rsi",
    "TS.C60_zeroCrossover",
    "TS.C60_zero_first"
   ],
   "note": ""
  },
  {
   "property": "C61",
   "status": "proved",
   "theorems": [
    "TS.C61_sma",
    "TS.C61_ema",
    "TS.C61_rma",
    "TS.C61_macd",
    "TS.C61_crossover",
    "TS.C61_lag",
    "TS.C61_momentum"
   ],
   "note": ""
  },
  {
   "property": "C62",
   "status": "proved",
   "theorems": [
    "TS.C62_sma",
    "TS.C62_ema",
    "TS.C62_rma",
    "TS.C62_macd",
    "TS.C62_crossover",
    "TS.C62_momentum",
    "TS.C62_lag",
    "TS.C62_globalMin",
    "TS.C62_globalMax",
    "TS.C62_localMin",
    "TS.C62_localMax",
    "TS.C62_return",
    "TS.C62_rsi",
    "TS.C62_zeroCrossover",
    "TS.C62_sma_signal",
    "TS.C62_macd_signal",
    "TS.C62_drawdown",
    "TS.C62_msd",
    "TS.C62_bollinger",
    "TS.C62_logReturn",
    "TS.C62_volatility",
    "TS.C62_sharpe",
    "TS.C62_skewness",
    "TS.C62_correlation",
    "TS.C62_crossCorrelation",
    "TS.C62_autoCorrelation"
   ],
   "note": ""
  },
  {
   "property": "C63",
   "status": "proved",
   "theorems": [
    "TS.C63_sma",
    "TS.C63_ema",
    "TS.C63_rma",
    "TS.C63_lag",
    "TS.C63_macd",
    "TS.C63_crossover",
    "TS.C63_momentum",
    "TS.C63_msd",
    "TS.C63_bollinger",
    "TS.C63_rsi",
    "TS.C63_correlation",
    "TS.C63_crossCorrelation",
    "TS.C63_autoCorrelation",
    "TS.C63_sharpe",
    "TS.C63_sma_signal",
    "TS.C63_macd_signal",
    "TS.C63_globalMin",
    "TS.C63_globalMax",
    "TS.C63_localMin",
    "TS.C63_localMax",
    "TS.C63_skewness"
   ],
   "note": ""
  },
  {
   "property": "C64",
   "status": "proved",
   "theorems": [
    "TS.C64_isotone_sma",
    "TS.C64_isotone_ema",
    "TS.C64_isotone_rma",
    "TS.C64_isotone_lag",
    "TS.C64_isotone_globalMin",
    "TS.C64_isotone_globalMax",
    "TS.C64_isotone_localMin",
    "TS.C64_isotone_localMax",
    "TS.C64_nonexpansive_sma",
    "TS.C64_nonexpansive_ema",
    "TS.C64_nonexpansive_rma",
    "TS.C64_nonexpansive_lag",
    "TS.C64_nonexpansive_globalMin",
    "TS.C64_nonexpansive_globalMax",
    "TS.C64_nonexpansive_localMin",
    "TS.C64_nonexpansive_localMax"
   ],
   "note": ""
  },
  {
   "property": "C65",
   "status": "proved",
   "theorems": [
    "TS.C65_sma",
    "TS.C65_ema",
    "TS.C65_rma",
    "TS.C65_lag",
    "TS.C65_momentum",
    "TS.C65_globalMin",
    "TS.C65_globalMax",
    "TS.C65_msd",
    "TS.C65_crossover",
    "TS.C65_return",
    "TS.C65_rsi",
    "TS.C65_bollinger",
    "TS.C65_skewness"
   ],
   "note": ""
  },
  {
   "property": "C66",
   "status": "proved",
   "theorems": [
    "TS.C66_compose",
    "TS.C66_join",
    "TS.C66_fork",
    "TS.C66_arithmetic",
    "TS.C66_fork_join"
   ],
   "note": ""
  },
  {
   "property": "C67",
   "status": "proved",
   "theorems": [
    "TS.C67_lag_lag",
    "TS.C67_autoCorrelation",
    "TS.C67_averages_one",
    "TS.C67_extrema_one",
    "TS.C67_extrema_short",
    "TS.C67_ffill_zero_free",
    "TS.C67_ffill_twice",
    "TS.C67_not_interchangeable",
    "TS.C67_local_local",
    "TS.C67_global_min",
    "TS.C67_global_max"
   ],
   "note": ""
  },
  {
   "property": "C68",
   "status": "proved",
   "theorems": [
    "TS.C68_map",
    "TS.C68_map_tensors",
    "TS.C68_map_ints",
    "TS.C68_map_numbers",
    "TS.C68_map_sma",
    "TS.C68_map_ema",
    "TS.C68_map_rma",
    "TS.C68_map_msd",
    "TS.C68_map_lag",
    "TS.C68_map_momentum",
    "TS.C68_map_crossover",
    "TS.C68_map_zero_crossover",
    "TS.C68_map_sma_signal",
    "TS.C68_map_macd_signal",
    "TS.C68_map_return",
    "TS.C68_map_logReturn",
    "TS.C68_map_volatility",
    "TS.C68_map_rsi",
    "TS.C68_map_skewness",
    "TS.C68_map_extrema"
   ],
   "note": ""
  },
  {
   "property": "C69",
   "status": "proved",
   "theorems": [
    "TS.C69_sma",
    "TS.C69_ema",
    "TS.C69_rma",
    "TS.C69_msd",
    "TS.C69_bollinger",
    "TS.C69_atr",
    "TS.C69_rsi",
    "TS.C69_return",
    "TS.C69_drawdown",
    "TS.C69_heikin_ashi",
    "TS.C69_order_sma",
    "TS.C69_order_rma",
    "TS.C69_order_ema",
    "TS.C69_average_exceeds",
    "TS.C69_constant_deviates",
    "TS.C69_constant_sharpe",
    "TS.C69_rsi_pause_nan",
    "TS.C69_rsi_pause_stuck"
   ],
   "note": ""
  },
  {
   "property": "C70",
   "status": "proved",
   "theorems": [
    "TS.C70_sma",
    "TS.C70_ema",
    "TS.C70_rma",
    "TS.C70_atr",
    "TS.C70_macd",
    "TS.C70_binary32",
    "TS.C70_exact",
    "TS.C70_momentum",
    "TS.C70_crossover",
    "TS.C70_return",
    "TS.C70_heikin_ashi",
    "TS.C70_msd",
    "TS.C70_bollinger",
    "TS.C70_msd_binary32",
    "TS.C70_rsi",
    "TS.C70_rsi_binary32",
    "TS.C70_drawdown",
    "TS.C70_sharpe",
    "TS.C70_sharpe_binary32",
    "TS.C70_correlation",
    "TS.C70_correlation_binary32",
    "TS.C70_cross",
    "TS.C70_auto",
    "TS.C70_cross_binary32",
    "TS.C70_auto_binary32",
    "TS.C70_skewness",
    "TS.C70_skewness_binary32",
    "TS.C70_logReturn",
    "TS.C70_volatility",
    "TS.C70_logReturn_binary32",
    "TS.C70_volatility_binary32",
    "TS.C70_skewness_cancels"
   ],
   "note": ""
  },
  {
   "property": "C71",
   "status": "proved",
   "theorems": [
    "TS.C71_counters",
    "TS.C71_int32",
    "TS.C71_floats",
    "TS.C71_signals",
    "TS.C71_signs_exact",
    "TS.C71_signs_binary32"
   ],
   "note": ""
  },
  {
   "property": "C72",
   "status": "proved",
   "theorems": [
    "TS.C72_map_compose",
    "TS.C72_map_join",
    "TS.C72_map_identity",
    "TS.C72_interchange"
   ],
   "note": ""
  },
  {
   "property": "C73",
   "status": "proved",
   "theorems": [
    "TS.C73_ema",
    "TS.C73_rma",
    "TS.C73_atr",
    "TS.C73_ema_weights",
    "TS.C73_rma_weights"
   ],
   "note": ""
  },
  {
   "property": "C74",
   "status": "proved",
   "theorems": [
    "TS.C74_list_or_tuple",
    "TS.C74_one_input",
    "TS.C74_one_row",
    "TS.C74_no_state",
    "TS.C74_abstract",
    "TS.C74_abstract_error"
   ],
   "note": ""
  },
  {
   "property": "C75",
   "status": "proved",
   "theorems": [
    "TS.C75_averages",
    "TS.C75_lag_extrema",
    "TS.C75_deviation",
    "TS.C75_macd",
    "TS.C75_differences",
    "TS.C75_return",
    "TS.C75_volatility",
    "TS.C75_compose"
   ],
   "note": ""
  },
  {
   "property": "C76",
   "status": "proved",
   "theorems": [
    "TS.C76_averages",
    "TS.C76_rma",
    "TS.C76_momentum",
    "TS.C76_crossover",
    "TS.C76_macd",
    "TS.C76_extrema",
    "TS.C76_silent",
    "TS.C76_rsi",
    "TS.C76_deviation",
    "TS.C76_skewness",
    "TS.C76_growth",
    "TS.C76_log_growth"
   ],
   "note": ""
  },
  {
   "property": "C77",
   "status": "proved",
   "theorems": [
    "TS.C77_averages",
    "TS.C77_changes",
    "TS.C77_macd",
    "TS.C77_lag",
    "TS.C77_lossy"
   ],
   "note": ""
  },
  {
   "property": "C78",
   "status": "proved",
   "theorems": [
    "TS.C78_averages",
    "TS.C78_extrema",
    "TS.C78_ordered",
    "TS.C78_moments",
    "TS.C78_correlation",
    "TS.C78_sharpe"
   ],
   "note": ""
  },
  {
   "property": "C79",
   "status": "proved",
   "theorems": [
    "TS.C79_extrema",
    "TS.C79_averages",
    "TS.C79_deviation",
    "TS.C79_bollinger",
    "TS.C79_chebyshev"
   ],
   "note": ""
  },
  {
   "property": "C80",
   "status": "proved",
   "theorems": [
    "TS.C80_correlation",
    "TS.C80_cross",
    "TS.C80_auto",
    "TS.C80_delay",
    "TS.C80_direction",
    "TS.C80_periodic"
   ],
   "note": ""
  },
  {
   "property": "C81",
   "status": "proved",
   "theorems": [
    "TS.C81_static_sound",
    "TS.C81_static_exact",
    "TS.C81_typed"
   ],
   "note": ""
  },
  {
   "property": "C82",
   "status": "proved",
   "theorems": [
    "TS.C82_sma",
    "TS.C82_msd",
    "TS.C82_lag",
    "TS.C82_localMin",
    "TS.C82_localMax",
    "TS.C82_correlation",
    "TS.C82_return",
    "TS.C82_logReturn",
    "TS.C82_sharpe",
    "TS.C82_skewness",
    "TS.C82_rsi",
    "TS.C82_bollinger",
    "TS.C82_ema",
    "TS.C82_rma",
    "TS.C82_ema_zero",
    "TS.C82_momentum",
    "TS.C82_cross",
    "TS.C82_ema_zero_alternating",
    "TS.C82_rma_zero",
    "TS.C82_volatility",
    "TS.C82_crossover",
    "TS.C82_crossover_signal",
    "TS.C82_riskRatio",
    "TS.C82_auto",
    "TS.C82_atr",
    "TS.C82_macd",
    "TS.C82_macd_signal"
   ],
   "note": ""
  },
  {
   "property": "C83",
   "status": "proved",
   "theorems": [
    "TS.C83_step",
    "TS.C83_stream",
    "TS.C83_parts"
   ],
   "note": ""
  },
  {
   "property": "C84",
   "status": "proved",
   "theorems": [
    "TS.C84_accepts",
    "TS.C84_rsi",
    "TS.C84_indicators"
   ],
   "note": ""
  },
  {
   "property": "C85",
   "status": "proved",
   "theorems": [
    "TS.C85_trades",
    "TS.C85_backtest",
    "TS.C85_bounded",
    "TS.C85_crossover",
    "TS.C85_macd"
   ],
   "note": ""
  },
  {
   "property": "C86",
   "status": "proved",
   "theorems": [
    "TS.C86_shapes",
    "TS.C86_cold",
    "TS.C86_vector_number",
    "TS.C86_number_vector",
    "TS.C86_misaligned",
    "TS.C86_uninformative",
    "TS.C86_cross"
   ],
   "note": ""
  },
  {
   "property": "C87",
   "status": "proved",
   "theorems": [
    "TS.C87_before",
    "TS.C87_sma",
    "TS.C87_msd",
    "TS.C87_setDuring",
    "TS.C87_correlation",
    "TS.C87_localMinimum",
    "TS.C87_localMaximum",
    "TS.C87_skewness",
    "TS.C87_sharpe",
    "TS.C87_ema",
    "TS.C87_rma",
    "TS.C87_averages_agree",
    "TS.C87_unaffected",
    "TS.C87_after",
    "TS.C87_infinite",
    "TS.C87_drawdown",
    "TS.C87_returns",
    "TS.C87_rsi",
    "TS.C87_crossCorrelation",
    "TS.C87_autoCorrelation",
    "TS.C87_macd",
    "TS.C87_atr"
   ],
   "note": ""
  },
  {
   "property": "C88",
   "status": "proved",
   "theorems": [
    "TS.C88_sma",
    "TS.C88_ema",
    "TS.C88_rma",
    "TS.C88_lag",
    "TS.C88_momentum",
    "TS.C88_ema_one",
    "TS.C88_rma_one",
    "TS.C88_crossover",
    "TS.C88_correlation",
    "TS.C88_return",
    "TS.C88_msd",
    "TS.C88_skewness",
    "TS.C88_bollinger",
    "TS.C88_macd",
    "TS.C88_sharpe",
    "TS.C88_rsi"
   ],
   "note": ""
  },
  {
   "property": "C89",
   "status": "proved",
   "theorems": [
    "TS.C89_sma_msd",
    "TS.C89_msd_sma",
    "TS.C89_bollinger",
    "TS.C89_ema",
    "TS.C89_rma",
    "TS.C89_macd",
    "TS.C89_correlation",
    "TS.C89_cross",
    "TS.C89_auto",
    "TS.C89_atr",
    "TS.C89_return",
    "TS.C89_skewness",
    "TS.C89_crossover"
   ],
   "note": ""
  },
  {
   "property": "C90",
   "status": "proved",
   "theorems": [
    "TS.C90_sma",
    "TS.C90_ema",
    "TS.C90_rma",
    "TS.C90_lag",
    "TS.C90_local_max",
    "TS.C90_global_max",
    "TS.C90_local_min",
    "TS.C90_global_min",
    "TS.C90_warm_up",
    "TS.C90_momentum"
   ],
   "note": ""
  },
  {
   "property": "C91",
   "status": "proved",
   "theorems": [
    "TS.C91_lag",
    "TS.C91_momentum",
    "TS.C91_sma",
    "TS.C91_crossover",
    "TS.C91_unique",
    "TS.C91_compose",
    "TS.C91_agree",
    "TS.C91_commute",
    "TS.C91_orders",
    "TS.C91_sma_step",
    "TS.C91_recursive"
   ],
   "note": ""
  },
  {
   "property": "C92",
   "status": "proved",
   "theorems": [
    "TS.C92_sma",
    "TS.C92_ema",
    "TS.C92_rma",
    "TS.C92_lag",
    "TS.C92_compose",
    "TS.C92_momentum",
    "TS.C92_local_max"
   ],
   "note": ""
  },
  {
   "property": "C93",
   "status": "proved",
   "theorems": [
    "TS.C93_lag",
    "TS.C93_sma",
    "TS.C93_msd",
    "TS.C93_local_min",
    "TS.C93_local_max",
    "TS.C93_ema",
    "TS.C93_rma",
    "TS.C93_return",
    "TS.C93_logReturn",
    "TS.C93_return_longer",
    "TS.C93_logReturn_longer",
    "TS.C93_skewness",
    "TS.C93_sharpe",
    "TS.C93_rsi",
    "TS.C93_correlation",
    "TS.C93_bollinger",
    "TS.C93_momentum",
    "TS.C93_crossover"
   ],
   "note": ""
  },
  {
   "property": "C94",
   "status": "proved",
   "theorems": [
    "TS.C94_rolling_exponential",
    "TS.C94_variance",
    "TS.C94_sharpe",
    "TS.C94_skewness",
    "TS.C94_correlation",
    "TS.C94_atr",
    "TS.C94_rsi"
   ],
   "note": ""
  },
  {
   "property": "C95",
   "status": "proved",
   "theorems": [
    "TS.C95_global_min",
    "TS.C95_global_max",
    "TS.C95_local_min",
    "TS.C95_local_max",
    "TS.C95_lag",
    "TS.C95_momentum",
    "TS.C95_sma",
    "TS.C95_ema",
    "TS.C95_rma",
    "TS.C95_zero_crossover"
   ],
   "note": ""
  },
  {
   "property": "C96",
   "status": "proved",
   "theorems": [
    "TS.C96_return",
    "TS.C96_rsi",
    "TS.C96_rsi_one",
    "TS.C96_correlation",
    "TS.C96_msd"
   ],
   "note": ""
  },
  {
   "property": "C97",
   "status": "proved",
   "theorems": [
    "TS.C97_rsi",
    "TS.C97_rsi_one",
    "TS.C97_msd",
    "TS.C97_return",
    "TS.C97_atr",
    "TS.C97_sharpe",
    "TS.C97_correlation",
    "TS.C97_correlation_two",
    "TS.C97_correlation_one",
    "TS.C97_drawdown",
    "TS.C97_skewness",
    "TS.C97_bollinger",
    "TS.C97_zero_crossover"
   ],
   "note": ""
  },
  {
   "property": "C98",
   "status": "proved",
   "theorems": [
    "TS.C98_sma",
    "TS.C98_ema",
    "TS.C98_rma",
    "TS.C98_momentum",
    "TS.C98_lag",
    "TS.C98_global_min",
    "TS.C98_global_max",
    "TS.C98_return",
    "TS.C98_zero_crossover",
    "TS.C98_local_max",
    "TS.C98_local_min",
    "TS.C98_atr",
    "TS.C98_rsi",
    "TS.C98_rsi_one",
    "TS.C98_crossover",
    "TS.C98_crossover_signal",
    "TS.C98_macd_signal"
   ],
   "note": ""
  },
  {
   "property": "C99",
   "status": "proved",
   "theorems": [
    "TS.C99_lag",
    "TS.C99_momentum",
    "TS.C99_return",
    "TS.C99_local_max",
    "TS.C99_local_min",
    "TS.C99_global_max",
    "TS.C99_global_min",
    "TS.C99_sma",
    "TS.C99_crossover",
    "TS.C99_msd",
    "TS.C99_bollinger",
    "TS.C99_skewness",
    "TS.C99_sharpe",
    "TS.C99_correlation",
    "TS.C99_zero_crossover"
   ],
   "note": ""
  },
  {
   "property": "C100",
   "status": "proved",
   "theorems": [
    "TS.C100_sma",
    "TS.C100_local_max",
    "TS.C100_local_min",
    "TS.C100_msd",
    "TS.C100_bollinger",
    "TS.C100_skewness",
    "TS.C100_sharpe",
    "TS.C100_momentum",
    "TS.C100_return",
    "TS.C100_lag",
    "TS.C100_global",
    "TS.C100_zero_crossover",
    "TS.C100_correlation"
   ],
   "note": ""
  },
  {
   "property": "C101",
   "status": "proved",
   "theorems": [
    "TS.C101_lag",
    "TS.C101_momentum",
    "TS.C101_return",
    "TS.C101_logReturn",
    "TS.C101_local",
    "TS.C101_global",
    "TS.C101_drawdown"
   ],
   "note": ""
  },
  {
   "property": "C102",
   "status": "proved",
   "theorems": [
    "TS.C102_lag",
    "TS.C102_momentum",
    "TS.C102_return",
    "TS.C102_sma",
    "TS.C102_ema",
    "TS.C102_rma",
    "TS.C102_zero_crossover",
    "TS.C102_crossover_signal",
    "TS.C102_macd_signal",
    "TS.C102_logReturn"
   ],
   "note": ""
  },
  {
   "property": "C103",
   "status": "proved",
   "theorems": [
    "TS.C103_global",
    "TS.C103_local",
    "TS.C103_extrema",
    "TS.C103_msd",
    "TS.C103_msd_difference",
    "TS.C103_bollinger"
   ],
   "note": ""
  },
  {
   "property": "C104",
   "status": "proved",
   "theorems": [
    "TS.C104_lag",
    "TS.C104_momentum",
    "TS.C104_return",
    "TS.C104_sma",
    "TS.C104_local",
    "TS.C104_global",
    "TS.C104_zero_crossover",
    "TS.C104_ema",
    "TS.C104_rma",
    "TS.C104_rsi",
    "TS.C104_drawdown",
    "TS.C104_heikin_ashi",
    "TS.C104_msd",
    "TS.C104_skewness",
    "TS.C104_sma_crossover",
    "TS.C104_atr",
    "TS.C104_bollinger",
    "TS.C104_sharpe",
    "TS.C104_correlation",
    "TS.C104_macd"
   ],
   "note": ""
  },
  {
   "property": "C105",
   "status": "proved",
   "theorems": [
    "TS.C105_lag",
    "TS.C105_return",
    "TS.C105_momentum",
    "TS.C105_sma",
    "TS.C105_zero_crossover",
    "TS.C105_global_max",
    "TS.C105_local_max",
    "TS.C105_global_min",
    "TS.C105_local_min",
    "TS.C105_ema",
    "TS.C105_rma",
    "TS.C105_drawdown",
    "TS.C105_heikin_ashi",
    "TS.C105_sma_crossover",
    "TS.C105_bollinger",
    "TS.C105_msd",
    "TS.C105_rsi",
    "TS.C105_atr",
    "TS.C105_sharpe",
    "TS.C105_macd",
    "TS.C105_correlation",
    "TS.C105_equivalence",
    "TS.C105_same_state",
    "TS.C105_extends"
   ],
   "note": ""
  }
 ]
}