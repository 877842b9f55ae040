'TS.C01_library' depends on axioms: [propext, Classical.choice, Quot.sound]
'TS.C01_streaming_eq_stepping' depends on axioms: [propext, Classical.choice, Quot.sound]
'TS.C02_chunks' depends on axioms: [propext, Classical.choice, Quot.sound]
'TS.C02_chunks_library' depends on axioms: [propext, Classical.choice, Quot.sound]
'TS.C02_library' depends on axioms: [propext, Classical.choice, Quot.sound]
'TS.C02_chunked_resumption' depends on axioms: [propext, Classical.choice, Quot.sound]
'TS.C03_library' depends on axioms: [propext, Classical.choice, Quot.sound]
'TS.C03_causality' depends on axioms: [propext, Classical.choice, Quot.sound]
'TS.C04_size_mismatch' depends on axioms: [propext, Classical.choice, Quot.sound]
'TS.C04_output_length' depends on axioms: [propext, Classical.choice, Quot.sound]
'TS.C05_state_types' depends on axioms: [propext, Classical.choice, Quot.sound]
'TS.C05_type_change_rejected' depends on axioms: [propext, Classical.choice, Quot.sound]
'TS.C05_type_change_error' depends on axioms: [propext, Classical.choice, Quot.sound]
'TS.C06_step_fresh' depends on axioms: [propext, Classical.choice, Quot.sound]
'TS.C06_step_echo' depends on axioms: [propext, Classical.choice, Quot.sound]
'TS.C06_stream_fresh' depends on axioms: [propext, Classical.choice, Quot.sound]
'TS.C06_stream_echo' depends on axioms: [propext, Classical.choice, Quot.sound]
'TS.C06_run_echo' depends on axioms: [propext, Classical.choice, Quot.sound]
'TS.C06_meta_preserve' depends on axioms: [propext, Classical.choice, Quot.sound]
'TS.C06_shipped_composites' depends on axioms: [propext, Classical.choice, Quot.sound]
'TS.C06_surplus_input_is_state' depends on axioms: [propext, Classical.choice, Quot.sound]
'TS.C07_map_fn_total' depends on axioms: [propext, Classical.choice, Quot.sound]
'TS.C07_map_fn_exact' depends on axioms: [propext, Classical.choice, Quot.sound]
'TS.C07_map_fn_id' depends on axioms: [propext, Classical.choice, Quot.sound]
'TS.C07_map_fn_comp' depends on axioms: [propext, Classical.choice, Quot.sound]
'TS.C07_map_fn_zip' depends on axioms: [propext, Classical.choice, Quot.sound]
'TS.C07_map_fn_cut' depends on axioms: [propext, Classical.choice, Quot.sound]
'TS.C07_map_fn_keys' depends on axioms: [propext, Classical.choice, Quot.sound]
'TS.C07_map_fn_kinds' depends on axioms: [propext, Quot.sound]
'TS.C08_flatten_order' depends on axioms: [propext]
'TS.C08_flatten_map_fn' depends on axioms: [propext, Classical.choice, Quot.sound]
'TS.C08_flatten_inj' depends on axioms: [propext, Quot.sound]
'TS.C09_any_value' depends on axioms: [propext, Classical.choice, Quot.sound]
'TS.C09_any_nan' depends on axioms: [propext, Classical.choice, Quot.sound]
'TS.C09_any_value_nan' depends on axioms: [propext, Classical.choice, Quot.sound]
'TS.C09_any_value_exact' depends on axioms: [propext, Classical.choice, Quot.sound]
'TS.C10_compose_pipeline_resume' depends on axioms: [propext, Classical.choice, Quot.sound]
'TS.C10_compose_pipeline' depends on axioms: [propext, Classical.choice, Quot.sound]
'TS.C10_compose_pipeline_library' depends on axioms: [propext, Classical.choice, Quot.sound]
'TS.C11_compose_assoc_step' depends on axioms: [propext, Classical.choice, Quot.sound]
'TS.C11_compose_assoc_stream' depends on axioms: [propext, Classical.choice, Quot.sound]
'TS.C11_compose_single_step' depends on axioms: [propext, Classical.choice, Quot.sound]
'TS.C11_compose_single_stream' depends on axioms: [propext, Classical.choice, Quot.sound]
'TS.C11_compose_empty' depends on axioms: [propext, Quot.sound]
'TS.C12_join_bank' depends on axioms: [propext, Classical.choice, Quot.sound]
'TS.C12_join_bank_library' depends on axioms: [propext, Classical.choice, Quot.sound]
'TS.C12_factory_bank' depends on axioms: [propext, Classical.choice, Quot.sound]
'TS.C13_join_step' depends on axioms: [propext, Classical.choice, Quot.sound]
'TS.C13_join_stream' depends on axioms: [propext, Classical.choice, Quot.sound]
'TS.C13_join_one_per_operator' depends on axioms: [propext, Classical.choice, Quot.sound]
'TS.C13_factory_step' depends on axioms: [propext, Classical.choice, Quot.sound]
'TS.C13_join_truncates' depends on axioms: [propext, Classical.choice, Quot.sound]
'TS.C14_map_columns_resume' depends on axioms: [propext, Classical.choice, Quot.sound]
'TS.C14_map_columns' depends on axioms: [propext, Classical.choice, Quot.sound]
'TS.C14_map_shares_initial_state' depends on axioms: [propext, Classical.choice, Quot.sound]
'TS.C14_map_typed' depends on axioms: [propext, Classical.choice, Quot.sound]
'TS.C15_ffill_resume' depends on axioms: [propext, Classical.choice, Quot.sound]
'TS.C15_ffill' depends on axioms: [propext, Classical.choice, Quot.sound]
'TS.C15_ffill_streams' depends on axioms: [propext, Classical.choice, Quot.sound]
'TS.C16_ffill_rejects_singleton_state' depends on axioms: [propext, Classical.choice, Quot.sound]
'TS.C16_ffill_streams' depends on axioms: [propext, Classical.choice, Quot.sound]
'TS.C16_ffill_iff' depends on axioms: [propext, Classical.choice, Quot.sound]
'TS.C16_ffill_rejects_single_chain' depends on axioms: [propext, Classical.choice, Quot.sound]
'TS.C16_ffill_map_fails' depends on axioms: [propext, Classical.choice, Quot.sound]
'TS.C16_ffill_autoCorrelation_fails' depends on axioms: [propext, Classical.choice, Quot.sound]
'TS.C17_lag' depends on axioms: [propext, Classical.choice, Quot.sound]
'TS.C17_lag_int' depends on axioms: [propext, Classical.choice, Quot.sound]
'TS.C17_lag_bool' depends on axioms: [propext, Classical.choice, Quot.sound]
'TS.C17_lag_streams' depends on axioms: [propext, Classical.choice, Quot.sound]
'TS.C18_setDuring' depends on axioms: [propext, Classical.choice, Quot.sound]
'TS.C18_setDuring_int' depends on axioms: [propext, Classical.choice, Quot.sound]
'TS.C18_setDuring_split' depends on axioms: [propext, Classical.choice, Quot.sound]
'TS.C18_setDuring_bool' depends on axioms: [propext, Classical.choice, Quot.sound]
'TS.C18_setDuring_accepts' depends on axioms: [propext, Classical.choice, Quot.sound]
'TS.C19_momentum_streams' depends on axioms: [propext, Classical.choice, Quot.sound]
'TS.C19_momentum' depends on axioms: [propext, Classical.choice, Quot.sound]
'TS.C19_momentum_sum' depends on axioms: [propext, Classical.choice, Quot.sound]
'TS.C20_global_min_streams' depends on axioms: [propext, Classical.choice, Quot.sound]
'TS.C20_global_max_streams' depends on axioms: [propext, Classical.choice, Quot.sound]
'TS.C20_global_min' depends on axioms: [propext, Classical.choice, Quot.sound]
'TS.C20_global_max' depends on axioms: [propext, Classical.choice, Quot.sound]
'TS.C20_global_min_resumed' depends on axioms: [propext, Classical.choice, Quot.sound]
'TS.C20_global_min_int' depends on axioms: [propext, Classical.choice, Quot.sound]
'TS.C20_global_max_int' depends on axioms: [propext, Classical.choice, Quot.sound]
'TS.C20_global_min_infinite' depends on axioms: [propext, Classical.choice, Quot.sound]
'TS.C20_global_max_infinite' depends on axioms: [propext, Classical.choice, Quot.sound]
'TS.C21_local_min_streams' depends on axioms: [propext, Classical.choice, Quot.sound]
'TS.C21_local_max_streams' depends on axioms: [propext, Classical.choice, Quot.sound]
'TS.C21_local_min' depends on axioms: [propext, Classical.choice, Quot.sound]
'TS.C21_local_max' depends on axioms: [propext, Classical.choice, Quot.sound]
'TS.C21_local_min_int' depends on axioms: [propext, Classical.choice, Quot.sound]
'TS.C21_local_max_int' depends on axioms: [propext, Classical.choice, Quot.sound]
'TS.C21_local_min_infinite' depends on axioms: [propext, Classical.choice, Quot.sound]
'TS.C21_local_max_infinite' depends on axioms: [propext, Classical.choice, Quot.sound]
'TS.C22_automaton_step' depends on axioms: [propext, Classical.choice, Quot.sound]
'TS.C22_automaton_total' depends on axioms: [propext, Classical.choice, Quot.sound]
'TS.C22_automaton_run' depends on axioms: [propext, Classical.choice, Quot.sound]
'TS.C23_broadcasting' depends on axioms: [propext, Classical.choice, Quot.sound]
'TS.C23_arithmetic_scalar' depends on axioms: [propext, Classical.choice, Quot.sound]
'TS.C23_arithmetic' depends on axioms: [propext, Classical.choice, Quot.sound]
'TS.C23_arithmetic_int' depends on axioms: [propext, Classical.choice, Quot.sound]
'TS.C23_indicators' depends on axioms: [propext, Classical.choice, Quot.sound]
'TS.C23_indicators_int' depends on axioms: [propext, Classical.choice, Quot.sound]
'TS.C23_exclusive' depends on axioms: [propext, Classical.choice, Quot.sound]
'TS.C23_identity' depends on axioms: [propext, Classical.choice, Quot.sound]
'TS.C23_fork' depends on axioms: [propext, Classical.choice, Quot.sound]
'TS.C23_select' depends on axioms: [propext, Classical.choice, Quot.sound]
'TS.C24_select_tuple_fails' depends on axioms: [propext, Quot.sound]
'TS.C24_downstream_rejects' depends on axioms: [propext, Classical.choice, Quot.sound]
'TS.C24_select_list' depends on axioms: [propext, Classical.choice, Quot.sound]
'TS.C24_select_iff' depends on axioms: [propext, Classical.choice, Quot.sound]
'TS.C25_sma' depends on axioms: [propext, Classical.choice, Quot.sound]
'TS.C25_sma_at' depends on axioms: [propext, Classical.choice, Quot.sound]
'TS.C26_ema' depends on axioms: [propext, Classical.choice, Quot.sound]
'TS.C26_ema_at' depends on axioms: [propext, Classical.choice, Quot.sound]
'TS.C27_rma' depends on axioms: [propext, Classical.choice, Quot.sound]
'TS.C27_rma_at' depends on axioms: [propext, Classical.choice, Quot.sound]
'TS.C28_sma' depends on axioms: [propext, Classical.choice, Quot.sound]
'TS.C28_ema' depends on axioms: [propext, Classical.choice, Quot.sound]
'TS.C28_rma' depends on axioms: [propext, Classical.choice, Quot.sound]
'TS.C28_constant' depends on axioms: [propext, Classical.choice, Quot.sound]
'TS.C29_msd_streams' depends on axioms: [propext, Classical.choice, Quot.sound]
'TS.C29_msd' depends on axioms: [propext, Classical.choice, Quot.sound]
'TS.C29_msd_zero' depends on axioms: [propext, Classical.choice, Quot.sound]
'TS.C29_msd_shift' depends on axioms: [propext, Classical.choice, Quot.sound]
'TS.C29_msd_scale' depends on axioms: [propext, Classical.choice, Quot.sound]
'TS.C30_bollinger_streams' depends on axioms: [propext, Classical.choice, Quot.sound]
'TS.C30_bollinger_scalar' depends on axioms: [propext, Classical.choice, Quot.sound]
'TS.C30_bollinger' depends on axioms: [propext, Classical.choice, Quot.sound]
'TS.C31_macd' depends on axioms: [propext, Classical.choice, Quot.sound]
'TS.C31_macd_at' depends on axioms: [propext, Classical.choice, Quot.sound]
'TS.C32_crossover' depends on axioms: [propext, Classical.choice, Quot.sound]
'TS.C32_crossover_at' depends on axioms: [propext, Classical.choice, Quot.sound]
'TS.C33_zero_crossover_streams' depends on axioms: [propext, Classical.choice, Quot.sound]
'TS.C33_zero_crossover' depends on axioms: [propext, Classical.choice, Quot.sound]
'TS.C34_sma_streams' depends on axioms: [propext, Classical.choice, Quot.sound]
'TS.C34_macd_streams' depends on axioms: [propext, Classical.choice, Quot.sound]
'TS.C34_sma' depends on axioms: [propext, Classical.choice, Quot.sound]
'TS.C34_macd' depends on axioms: [propext, Classical.choice, Quot.sound]
'TS.C35_genuine_iff' depends on axioms: [propext, Classical.choice, Quot.sound]
'TS.C35_before_signal' depends on axioms: [propext, Classical.choice, Quot.sound]
'TS.C35_first_value_signals' depends on axioms: [propext, Classical.choice, Quot.sound]
'TS.C36_rsi_streams' depends on axioms: [propext, Classical.choice, Quot.sound]
'TS.C36_rsi' depends on axioms: [propext, Classical.choice, Quot.sound]
'TS.C36_rsi_prices' depends on axioms: [propext, Classical.choice, Quot.sound]
'TS.C36_period_one' depends on axioms: [propext, Classical.choice, Quot.sound]
'TS.C36_pause' depends on axioms: [propext, Classical.choice, Quot.sound]
'TS.C37_compound' depends on axioms: [propext, Classical.choice, Quot.sound]
'TS.C37_return_streams' depends on axioms: [propext, Classical.choice, Quot.sound]
'TS.C37_logReturn_streams' depends on axioms: [propext, Classical.choice, Quot.sound]
'TS.C37_return' depends on axioms: [propext, Classical.choice, Quot.sound]
'TS.C37_logReturn' depends on axioms: [propext, Classical.choice, Quot.sound]
'TS.C37_log_one_add' depends on axioms: [propext, Classical.choice, Quot.sound]
'TS.C37_telescope' depends on axioms: [propext, Classical.choice, Quot.sound]
'TS.C38_genuine_iff' depends on axioms: [propext, Classical.choice, Quot.sound]
'TS.C38_volatility_streams' depends on axioms: [propext, Classical.choice, Quot.sound]
'TS.C38_volatility' depends on axioms: [propext, Classical.choice, Quot.sound]
'TS.C38_genuine' depends on axioms: [propext, Classical.choice, Quot.sound]
'TS.C38_warmup_zeros' depends on axioms: [propext, Classical.choice, Quot.sound]
'TS.C39_sharpe_streams' depends on axioms: [propext, Classical.choice, Quot.sound]
'TS.C39_sharpe' depends on axioms: [propext, Classical.choice, Quot.sound]
'TS.C40_skewness' depends on axioms: [propext, Classical.choice, Quot.sound]
'TS.C40_skewness_affine' depends on axioms: [propext, Classical.choice, Quot.sound]
'TS.C40_skewness_bound' depends on axioms: [propext, Classical.choice, Quot.sound]
'TS.C40_skewness_attained' depends on axioms: [propext, Classical.choice, Quot.sound]
'TS.C41_correlation_streams' depends on axioms: [propext, Classical.choice, Quot.sound]
'TS.C41_correlation_scalar' depends on axioms: [propext, Classical.choice, Quot.sound]
'TS.C41_correlation' depends on axioms: [propext, Classical.choice, Quot.sound]
'TS.C41_correlation_symm' depends on axioms: [propext, Classical.choice, Quot.sound]
'TS.C41_correlation_self' depends on axioms: [propext, Classical.choice, Quot.sound]
'TS.C42_cross_streams' depends on axioms: [propext, Classical.choice, Quot.sound]
'TS.C42_cross' depends on axioms: [propext, Classical.choice, Quot.sound]
'TS.C42_auto_streams' depends on axioms: [propext, Classical.choice, Quot.sound]
'TS.C42_auto' depends on axioms: [propext, Classical.choice, Quot.sound]
'TS.C42_cross_scalar' depends on axioms: [propext, Classical.choice, Quot.sound]
'TS.C42_auto_scalar' depends on axioms: [propext, Classical.choice, Quot.sound]
'TS.C43_tensors_streams' depends on axioms: [propext, Classical.choice, Quot.sound]
'TS.C43_tensors' depends on axioms: [propext, Classical.choice, Quot.sound]
'TS.C43_tensors_above' depends on axioms: [propext, Classical.choice, Quot.sound]
'TS.C43_one_number' depends on axioms: [propext, Classical.choice, Quot.sound]
'TS.C43_atr_streams' depends on axioms: [propext, Classical.choice, Quot.sound]
'TS.C43_atr' depends on axioms: [propext, Classical.choice, Quot.sound]
'TS.C43_first_range' depends on axioms: [propext, Classical.choice, Quot.sound]
'TS.C43_mixed_streams' depends on axioms: [propext, Classical.choice, Quot.sound]
'TS.C43_mixed_iff' depends on axioms: [propext, Classical.choice, Quot.sound]
'TS.C44_supertrend_fails' depends on axioms: [propext, Classical.choice, Quot.sound]
'TS.C44_small_gaps' depends on axioms: [propext, Classical.choice, Quot.sound]
'TS.C44_supertrend_iff' depends on axioms: [propext, Classical.choice, Quot.sound]
'TS.C45_supertrend_streams' depends on axioms: [propext, Classical.choice, Quot.sound]
'TS.C45_supertrend' depends on axioms: [propext, Classical.choice, Quot.sound]
'TS.C46_heikinAshi_streams' depends on axioms: [propext, Classical.choice, Quot.sound]
'TS.C46_heikinAshi' depends on axioms: [propext, Classical.choice, Quot.sound]
'TS.C47_drawdown_streams' depends on axioms: [propext, Classical.choice, Quot.sound]
'TS.C47_drawdown' depends on axioms: [propext, Classical.choice, Quot.sound]
'TS.C48_details' depends on axioms: [propext, Classical.choice, Quot.sound]
'TS.C48_drawdown_details' depends on axioms: [propext, Classical.choice, Quot.sound]
'TS.C48_minimum' depends on axioms: [propext, Quot.sound]
'TS.C48_runs' depends on axioms: [propext, Quot.sound]
'TS.C49_counters' depends on axioms: [propext, Classical.choice, Quot.sound]
'TS.C50_discipline_iff' depends on axioms: [propext, Classical.choice, Quot.sound]
'TS.C50_position' depends on axioms: [propext, Classical.choice, Quot.sound]
'TS.C50_flat' depends on axioms: [propext, Classical.choice, Quot.sound]
'TS.C50_discipline' depends on axioms: [propext, Classical.choice, Quot.sound]
'TS.C50_two_buys' depends on axioms: [propext, Classical.choice, Quot.sound]
'TS.C51_duration' depends on axioms: [propext, Classical.choice, Quot.sound]
'TS.C52_sma' depends on axioms: [propext, Classical.choice, Quot.sound]
'TS.C52_msd' depends on axioms: [propext, Classical.choice, Quot.sound]
'TS.C52_bollinger' depends on axioms: [propext, Classical.choice, Quot.sound]
'TS.C52_crossover' depends on axioms: [propext, Classical.choice, Quot.sound]
'TS.C52_lag' depends on axioms: [propext, Classical.choice, Quot.sound]
'TS.C52_momentum' depends on axioms: [propext, Classical.choice, Quot.sound]
'TS.C52_local_min' depends on axioms: [propext, Classical.choice, Quot.sound]
'TS.C52_local_max' depends on axioms: [propext, Classical.choice, Quot.sound]
'TS.C52_return' depends on axioms: [propext, Classical.choice, Quot.sound]
'TS.C52_logReturn' depends on axioms: [propext, Classical.choice, Quot.sound]
'TS.C52_volatility' depends on axioms: [propext, Classical.choice, Quot.sound]
'TS.C52_sharpe' depends on axioms: [propext, Classical.choice, Quot.sound]
'TS.C52_skewness' depends on axioms: [propext, Classical.choice, Quot.sound]
'TS.C52_correlation' depends on axioms: [propext, Classical.choice, Quot.sound]
'TS.C52_cross' depends on axioms: [propext, Classical.choice, Quot.sound]
'TS.C52_auto' depends on axioms: [propext, Classical.choice, Quot.sound]
'TS.C53_sma' depends on axioms: [propext, Classical.choice, Quot.sound]
'TS.C53_ema' depends on axioms: [propext, Classical.choice, Quot.sound]
'TS.C53_rma' depends on axioms: [propext, Classical.choice, Quot.sound]
'TS.C53_msd' depends on axioms: [propext, Classical.choice, Quot.sound]
'TS.C53_crossover' depends on axioms: [propext, Classical.choice, Quot.sound]
'TS.C53_lag' depends on axioms: [propext, Classical.choice, Quot.sound]
'TS.C53_momentum' depends on axioms: [propext, Classical.choice, Quot.sound]
'TS.C53_bollinger' depends on axioms: [propext, Classical.choice, Quot.sound]
'TS.C53_macd' depends on axioms: [propext, Classical.choice, Quot.sound]
'TS.C53_correlation' depends on axioms: [propext, Classical.choice, Quot.sound]
'TS.C53_zero_crossover' depends on axioms: [propext, Classical.choice, Quot.sound]
'TS.C53_sma_signal' depends on axioms: [propext, Classical.choice, Quot.sound]
'TS.C53_macd_signal' depends on axioms: [propext, Classical.choice, Quot.sound]
'TS.C54_filter_with_mask' depends on axioms: [propext, Quot.sound]
'TS.C54_filter_same_length' depends on axioms: [propext, Quot.sound]
'TS.C54_map_consecutive' depends on axioms: [propext, Quot.sound]
'TS.C54_roll' depends on axioms: [propext, Quot.sound]
'TS.C54_shift' depends on axioms: [propext]
'TS.C55_transpose' depends on axioms: [propext, Quot.sound]
'TS.C55_missing_column' depends on axioms: [propext, Quot.sound]
'TS.C56_typed_streams' depends on axioms: [propext, Classical.choice, Quot.sound]
'TS.C56_typed_chunks' depends on axioms: [propext, Classical.choice, Quot.sound]
'TS.C56_typed_steps' depends on axioms: [propext, Classical.choice, Quot.sound]
'TS.C56_typed_initial_state' depends on axioms: [propext, Classical.choice, Quot.sound]
'TS.C56_momentum_typed' depends on axioms: [propext, Classical.choice, Quot.sound]
'TS.C56_smaCrossover_typed' depends on axioms: [propext, Classical.choice, Quot.sound]
'TS.C56_volatility_typed' depends on axioms: [propext, Classical.choice, Quot.sound]
'TS.C56_smaSignal_typed' depends on axioms: [propext, Classical.choice, Quot.sound]
'TS.C56_macdSignal_typed' depends on axioms: [propext, Classical.choice, Quot.sound]
'TS.C57_ffill_sma' depends on axioms: [propext, Classical.choice, Quot.sound]
'TS.C57_ffill_msd' depends on axioms: [propext, Classical.choice, Quot.sound]
'TS.C57_ffill_ema' depends on axioms: [propext, Classical.choice, Quot.sound]
'TS.C57_ffill_rma' depends on axioms: [propext, Classical.choice, Quot.sound]
'TS.C57_ffill_lag' depends on axioms: [propext, Classical.choice, Quot.sound]
'TS.C57_ffill_momentum' depends on axioms: [propext, Classical.choice, Quot.sound]
'TS.C57_ffill_crossover' depends on axioms: [propext, Classical.choice, Quot.sound]
'TS.C57_ffill_globalMin' depends on axioms: [propext, Classical.choice, Quot.sound]
'TS.C57_ffill_globalMax' depends on axioms: [propext, Classical.choice, Quot.sound]
'TS.C57_ffill_localMin' depends on axioms: [propext, Classical.choice, Quot.sound]
'TS.C57_ffill_localMax' depends on axioms: [propext, Classical.choice, Quot.sound]
'TS.C57_ffill_return' depends on axioms: [propext, Classical.choice, Quot.sound]
'TS.C57_ffill_logReturn' depends on axioms: [propext, Classical.choice, Quot.sound]
'TS.C57_ffill_volatility' depends on axioms: [propext, Classical.choice, Quot.sound]
'TS.C57_ffill_skewness' depends on axioms: [propext, Classical.choice, Quot.sound]
'TS.C57_ffill_rsi' depends on axioms: [propext, Classical.choice, Quot.sound]
'TS.C57_ffill_correlation' depends on axioms: [propext, Classical.choice, Quot.sound]
'TS.C57_ffill_atr' depends on axioms: [propext, Classical.choice, Quot.sound]
'TS.C57_ffill_heikinAshi' depends on axioms: [propext, Classical.choice, Quot.sound]
'TS.C57_ffill_drawdown' depends on axioms: [propext, Classical.choice, Quot.sound]
'TS.C57_ffill_bollinger' depends on axioms: [propext, Classical.choice, Quot.sound]
'TS.C57_ffill_sharpe' depends on axioms: [propext, Classical.choice, Quot.sound]
'TS.C57_ffill_sharpe_riskless' depends on axioms: [propext, Classical.choice, Quot.sound]
'TS.C57_ffill_crossCorrelation' depends on axioms: [propext, Classical.choice, Quot.sound]
'TS.C57_ffill_zeroCrossover' depends on axioms: [propext, Classical.choice, Quot.sound]
'TS.C57_ffill_macd' depends on axioms: [propext, Classical.choice, Quot.sound]
'TS.C57_ffill_smaSignal' depends on axioms: [propext, Classical.choice, Quot.sound]
'TS.C57_ffill_macdSignal' depends on axioms: [propext, Classical.choice, Quot.sound]
'TS.C57_ffill_atr_tensors' depends on axioms: [propext, Classical.choice, Quot.sound]
'TS.C58_sma' depends on axioms: [propext, Classical.choice, Quot.sound]
'TS.C58_ema' depends on axioms: [propext, Classical.choice, Quot.sound]
'TS.C58_rma' depends on axioms: [propext, Classical.choice, Quot.sound]
'TS.C58_macd' depends on axioms: [propext, Classical.choice, Quot.sound]
'TS.C58_crossover' depends on axioms: [propext, Classical.choice, Quot.sound]
'TS.C58_lag' depends on axioms: [propext, Classical.choice, Quot.sound]
'TS.C58_momentum' depends on axioms: [propext, Classical.choice, Quot.sound]
'TS.C58_globalMin' depends on axioms: [propext, Classical.choice, Quot.sound]
'TS.C58_globalMax' depends on axioms: [propext, Classical.choice, Quot.sound]
'TS.C58_localMin' depends on axioms: [propext, Classical.choice, Quot.sound]
'TS.C58_localMax' depends on axioms: [propext, Classical.choice, Quot.sound]
'TS.C58_atr' depends on axioms: [propext, Classical.choice, Quot.sound]
'TS.C58_heikinAshi' depends on axioms: [propext, Classical.choice, Quot.sound]
'TS.C58_supertrend' depends on axioms: [propext, Classical.choice, Quot.sound]
'TS.C58_return' depends on axioms: [propext, Classical.choice, Quot.sound]
'TS.C58_logReturn' depends on axioms: [propext, Classical.choice, Quot.sound]
'TS.C58_volatility' depends on axioms: [propext, Classical.choice, Quot.sound]
'TS.C58_rsi' depends on axioms: [propext, Classical.choice, Quot.sound]
'TS.C58_zeroCrossover' depends on axioms: [propext, Classical.choice, Quot.sound]
'TS.C58_crossoverSignal' depends on axioms: [propext, Classical.choice, Quot.sound]
'TS.C58_macdSignal' depends on axioms: [propext, Classical.choice, Quot.sound]
'TS.C58_msd' depends on axioms: [propext, Classical.choice, Quot.sound]
'TS.C58_bollinger' depends on axioms: [propext, Classical.choice, Quot.sound]
'TS.C58_sharpe' depends on axioms: [propext, Classical.choice, Quot.sound]
'TS.C58_skewness' depends on axioms: [propext, Classical.choice, Quot.sound]
'TS.C58_correlation' depends on axioms: [propext, Classical.choice, Quot.sound]
'TS.C58_crossCorrelation' depends on axioms: [propext, Classical.choice, Quot.sound]
'TS.C58_autoCorrelation' depends on axioms: [propext, Classical.choice, Quot.sound]
'TS.C58_riskRatio' depends on axioms: [propext, Classical.choice, Quot.sound]
'TS.C59_drawdown_unit' depends on axioms: [propext, Classical.choice, Quot.sound]
'TS.C59_drawdown_losses' depends on axioms: [propext, Classical.choice, Quot.sound]
'TS.C59_drawdown_same' depends on axioms: [propext, Classical.choice, Quot.sound]
'TS.C59_drawdown_iff' depends on axioms: [propext, Classical.choice, Quot.sound]
'TS.C60_sma' depends on axioms: [propext, Classical.choice, Quot.sound]
'TS.C60_ema' depends on axioms: [propext, Classical.choice, Quot.sound]
'TS.C60_rma' depends on axioms: [propext, Classical.choice, Quot.sound]
'TS.C60_macd' depends on axioms: [propext, Classical.choice, Quot.sound]
'TS.C60_crossover' depends on axioms: [propext, Classical.choice, Quot.sound]
'TS.C60_lag' depends on axioms: [propext, Classical.choice, Quot.sound]
'TS.C60_momentum' depends on axioms: [propext, Classical.choice, Quot.sound]
'TS.C60_global' depends on axioms: [propext, Classical.choice, Quot.sound]
'TS.C60_local' depends on axioms: [propext, Classical.choice, Quot.sound]
'TS.C60_msd' depends on axioms: [propext, Classical.choice, Quot.sound]
'TS.C60_bollinger' depends on axioms: [propext, Classical.choice, Quot.sound]
'TS.C60_sharpe' depends on axioms: [propext, Classical.choice, Quot.sound]
'TS.C60_skewness' depends on axioms: [propext, Classical.choice, Quot.sound]
'TS.C60_correlation' depends on axioms: [propext, Classical.choice, Quot.sound]
'TS.C60_atr' depends on axioms: [propext, Classical.choice, Quot.sound]
'TS.C60_heikinAshi' depends on axioms: [propext, Classical.choice, Quot.sound]
'TS.C60_rsi' depends on axioms: [propext, Classical.choice, Quot.sound]
'TS.C60_zeroCrossover' depends on axioms: [propext, Classical.choice, Quot.sound]
'TS.C60_zero_first' depends on axioms: [propext, Classical.choice, Quot.sound]
'TS.C61_sma' depends on axioms: [propext, Classical.choice, Quot.sound]
'TS.C61_ema' depends on axioms: [propext, Classical.choice, Quot.sound]
'TS.C61_rma' depends on axioms: [propext, Classical.choice, Quot.sound]
'TS.C61_macd' depends on axioms: [propext, Classical.choice, Quot.sound]
'TS.C61_crossover' depends on axioms: [propext, Classical.choice, Quot.sound]
'TS.C61_lag' depends on axioms: [propext, Classical.choice, Quot.sound]
'TS.C61_momentum' depends on axioms: [propext, Classical.choice, Quot.sound]
'TS.C62_sma' depends on axioms: [propext, Classical.choice, Quot.sound]
'TS.C62_ema' depends on axioms: [propext, Classical.choice, Quot.sound]
'TS.C62_rma' depends on axioms: [propext, Classical.choice, Quot.sound]
'TS.C62_macd' depends on axioms: [propext, Classical.choice, Quot.sound]
'TS.C62_crossover' depends on axioms: [propext, Classical.choice, Quot.sound]
'TS.C62_momentum' depends on axioms: [propext, Classical.choice, Quot.sound]
'TS.C62_lag' depends on axioms: [propext, Classical.choice, Quot.sound]
'TS.C62_globalMin' depends on axioms: [propext, Classical.choice, Quot.sound]
'TS.C62_globalMax' depends on axioms: [propext, Classical.choice, Quot.sound]
'TS.C62_localMin' depends on axioms: [propext, Classical.choice, Quot.sound]
'TS.C62_localMax' depends on axioms: [propext, Classical.choice, Quot.sound]
'TS.C62_return' depends on axioms: [propext, Classical.choice, Quot.sound]
'TS.C62_rsi' depends on axioms: [propext, Classical.choice, Quot.sound]
'TS.C62_zeroCrossover' depends on axioms: [propext, Classical.choice, Quot.sound]
'TS.C62_sma_signal' depends on axioms: [propext, Classical.choice, Quot.sound]
'TS.C62_macd_signal' depends on axioms: [propext, Classical.choice, Quot.sound]
'TS.C62_drawdown' depends on axioms: [propext, Classical.choice, Quot.sound]
'TS.C62_msd' depends on axioms: [propext, Classical.choice, Quot.sound]
'TS.C62_bollinger' depends on axioms: [propext, Classical.choice, Quot.sound]
'TS.C62_logReturn' depends on axioms: [propext, Classical.choice, Quot.sound]
'TS.C62_volatility' depends on axioms: [propext, Classical.choice, Quot.sound]
'TS.C62_sharpe' depends on axioms: [propext, Classical.choice, Quot.sound]
'TS.C62_skewness' depends on axioms: [propext, Classical.choice, Quot.sound]
'TS.C62_correlation' depends on axioms: [propext, Classical.choice, Quot.sound]
'TS.C62_crossCorrelation' depends on axioms: [propext, Classical.choice, Quot.sound]
'TS.C62_autoCorrelation' depends on axioms: [propext, Classical.choice, Quot.sound]
'TS.C63_sma' depends on axioms: [propext, Classical.choice, Quot.sound]
'TS.C63_ema' depends on axioms: [propext, Classical.choice, Quot.sound]
'TS.C63_rma' depends on axioms: [propext, Classical.choice, Quot.sound]
'TS.C63_lag' depends on axioms: [propext, Classical.choice, Quot.sound]
'TS.C63_macd' depends on axioms: [propext, Classical.choice, Quot.sound]
'TS.C63_crossover' depends on axioms: [propext, Classical.choice, Quot.sound]
'TS.C63_momentum' depends on axioms: [propext, Classical.choice, Quot.sound]
'TS.C63_msd' depends on axioms: [propext, Classical.choice, Quot.sound]
'TS.C63_bollinger' depends on axioms: [propext, Classical.choice, Quot.sound]
'TS.C63_rsi' depends on axioms: [propext, Classical.choice, Quot.sound]
'TS.C63_correlation' depends on axioms: [propext, Classical.choice, Quot.sound]
'TS.C63_crossCorrelation' depends on axioms: [propext, Classical.choice, Quot.sound]
'TS.C63_autoCorrelation' depends on axioms: [propext, Classical.choice, Quot.sound]
'TS.C63_sharpe' depends on axioms: [propext, Classical.choice, Quot.sound]
'TS.C63_sma_signal' depends on axioms: [propext, Classical.choice, Quot.sound]
'TS.C63_macd_signal' depends on axioms: [propext, Classical.choice, Quot.sound]
'TS.C63_globalMin' depends on axioms: [propext, Classical.choice, Quot.sound]
'TS.C63_globalMax' depends on axioms: [propext, Classical.choice, Quot.sound]
'TS.C63_localMin' depends on axioms: [propext, Classical.choice, Quot.sound]
'TS.C63_localMax' depends on axioms: [propext, Classical.choice, Quot.sound]
'TS.C63_skewness' depends on axioms: [propext, Classical.choice, Quot.sound]
'TS.C64_isotone_sma' depends on axioms: [propext, Classical.choice, Quot.sound]
'TS.C64_isotone_ema' depends on axioms: [propext, Classical.choice, Quot.sound]
'TS.C64_isotone_rma' depends on axioms: [propext, Classical.choice, Quot.sound]
'TS.C64_isotone_lag' depends on axioms: [propext, Classical.choice, Quot.sound]
'TS.C64_isotone_globalMin' depends on axioms: [propext, Classical.choice, Quot.sound]
'TS.C64_isotone_globalMax' depends on axioms: [propext, Classical.choice, Quot.sound]
'TS.C64_isotone_localMin' depends on axioms: [propext, Classical.choice, Quot.sound]
'TS.C64_isotone_localMax' depends on axioms: [propext, Classical.choice, Quot.sound]
'TS.C64_nonexpansive_sma' depends on axioms: [propext, Classical.choice, Quot.sound]
'TS.C64_nonexpansive_ema' depends on axioms: [propext, Classical.choice, Quot.sound]
'TS.C64_nonexpansive_rma' depends on axioms: [propext, Classical.choice, Quot.sound]
'TS.C64_nonexpansive_lag' depends on axioms: [propext, Classical.choice, Quot.sound]
'TS.C64_nonexpansive_globalMin' depends on axioms: [propext, Classical.choice, Quot.sound]
'TS.C64_nonexpansive_globalMax' depends on axioms: [propext, Classical.choice, Quot.sound]
'TS.C64_nonexpansive_localMin' depends on axioms: [propext, Classical.choice, Quot.sound]
'TS.C64_nonexpansive_localMax' depends on axioms: [propext, Classical.choice, Quot.sound]
'TS.C65_sma' depends on axioms: [propext, Classical.choice, Quot.sound]
'TS.C65_ema' depends on axioms: [propext, Classical.choice, Quot.sound]
'TS.C65_rma' depends on axioms: [propext, Classical.choice, Quot.sound]
'TS.C65_lag' depends on axioms: [propext, Classical.choice, Quot.sound]
'TS.C65_momentum' depends on axioms: [propext, Classical.choice, Quot.sound]
'TS.C65_globalMin' depends on axioms: [propext, Classical.choice, Quot.sound]
'TS.C65_globalMax' depends on axioms: [propext, Classical.choice, Quot.sound]
'TS.C65_msd' depends on axioms: [propext, Classical.choice, Quot.sound]
'TS.C65_crossover' depends on axioms: [propext, Classical.choice, Quot.sound]
'TS.C65_return' depends on axioms: [propext, Classical.choice, Quot.sound]
'TS.C65_rsi' depends on axioms: [propext, Classical.choice, Quot.sound]
'TS.C65_bollinger' depends on axioms: [propext, Classical.choice, Quot.sound]
'TS.C65_skewness' depends on axioms: [propext, Classical.choice, Quot.sound]
'TS.C66_compose' depends on axioms: [propext, Classical.choice, Quot.sound]
'TS.C66_join' depends on axioms: [propext, Classical.choice, Quot.sound]
'TS.C66_fork' depends on axioms: [propext, Classical.choice, Quot.sound]
'TS.C66_arithmetic' depends on axioms: [propext, Classical.choice, Quot.sound]
'TS.C66_fork_join' depends on axioms: [propext, Classical.choice, Quot.sound]
'TS.C67_lag_lag' depends on axioms: [propext, Classical.choice, Quot.sound]
'TS.C67_autoCorrelation' depends on axioms: [propext, Classical.choice, Quot.sound]
'TS.C67_averages_one' depends on axioms: [propext, Classical.choice, Quot.sound]
'TS.C67_extrema_one' depends on axioms: [propext, Classical.choice, Quot.sound]
'TS.C67_extrema_short' depends on axioms: [propext, Classical.choice, Quot.sound]
'TS.C67_ffill_zero_free' depends on axioms: [propext, Classical.choice, Quot.sound]
'TS.C67_ffill_twice' depends on axioms: [propext, Classical.choice, Quot.sound]
'TS.C67_not_interchangeable' depends on axioms: [propext, Classical.choice, Quot.sound]
'TS.C67_local_local' depends on axioms: [propext, Classical.choice, Quot.sound]
'TS.C67_global_min' depends on axioms: [propext, Classical.choice, Quot.sound]
'TS.C67_global_max' depends on axioms: [propext, Classical.choice, Quot.sound]
'TS.C68_map' depends on axioms: [propext, Classical.choice, Quot.sound]
'TS.C68_map_tensors' depends on axioms: [propext, Classical.choice, Quot.sound]
'TS.C68_map_ints' depends on axioms: [propext, Classical.choice, Quot.sound]
'TS.C68_map_numbers' depends on axioms: [propext, Classical.choice, Quot.sound]
'TS.C68_map_sma' depends on axioms: [propext, Classical.choice, Quot.sound]
'TS.C68_map_ema' depends on axioms: [propext, Classical.choice, Quot.sound]
'TS.C68_map_rma' depends on axioms: [propext, Classical.choice, Quot.sound]
'TS.C68_map_msd' depends on axioms: [propext, Classical.choice, Quot.sound]
'TS.C68_map_lag' depends on axioms: [propext, Classical.choice, Quot.sound]
'TS.C68_map_momentum' depends on axioms: [propext, Classical.choice, Quot.sound]
'TS.C68_map_crossover' depends on axioms: [propext, Classical.choice, Quot.sound]
'TS.C68_map_zero_crossover' depends on axioms: [propext, Classical.choice, Quot.sound]
'TS.C68_map_sma_signal' depends on axioms: [propext, Classical.choice, Quot.sound]
'TS.C68_map_macd_signal' depends on axioms: [propext, Classical.choice, Quot.sound]
'TS.C68_map_return' depends on axioms: [propext, Classical.choice, Quot.sound]
'TS.C68_map_logReturn' depends on axioms: [propext, Classical.choice, Quot.sound]
'TS.C68_map_volatility' depends on axioms: [propext, Classical.choice, Quot.sound]
'TS.C68_map_rsi' depends on axioms: [propext, Classical.choice, Quot.sound]
'TS.C68_map_skewness' depends on axioms: [propext, Classical.choice, Quot.sound]
'TS.C68_map_extrema' depends on axioms: [propext, Classical.choice, Quot.sound]
'TS.C69_sma' depends on axioms: [propext, Classical.choice, Quot.sound]
'TS.C69_ema' depends on axioms: [propext, Classical.choice, Quot.sound]
'TS.C69_rma' depends on axioms: [propext, Classical.choice, Quot.sound]
'TS.C69_msd' depends on axioms: [propext, Classical.choice, Quot.sound]
'TS.C69_bollinger' depends on axioms: [propext, Classical.choice, Quot.sound]
'TS.C69_atr' depends on axioms: [propext, Classical.choice, Quot.sound]
'TS.C69_rsi' depends on axioms: [propext, Classical.choice, Quot.sound]
'TS.C69_return' depends on axioms: [propext, Classical.choice, Quot.sound]
'TS.C69_drawdown' depends on axioms: [propext, Classical.choice, Quot.sound]
'TS.C69_heikin_ashi' depends on axioms: [propext, Classical.choice, Quot.sound]
'TS.C69_order_sma' depends on axioms: [propext, Classical.choice, Quot.sound]
'TS.C69_order_rma' depends on axioms: [propext, Classical.choice, Quot.sound]
'TS.C69_order_ema' depends on axioms: [propext, Classical.choice, Quot.sound]
'TS.C69_average_exceeds' depends on axioms: [propext, Classical.choice, Quot.sound]
'TS.C69_constant_deviates' depends on axioms: [propext, Classical.choice, Quot.sound]
'TS.C69_constant_sharpe' depends on axioms: [propext, Classical.choice, Quot.sound]
'TS.C69_rsi_pause_nan' depends on axioms: [propext, Classical.choice, Quot.sound]
'TS.C69_rsi_pause_stuck' depends on axioms: [propext, Classical.choice, Quot.sound]
'TS.C70_sma' depends on axioms: [propext, Classical.choice, Quot.sound]
'TS.C70_ema' depends on axioms: [propext, Classical.choice, Quot.sound]
'TS.C70_rma' depends on axioms: [propext, Classical.choice, Quot.sound]
'TS.C70_atr' depends on axioms: [propext, Classical.choice, Quot.sound]
'TS.C70_macd' depends on axioms: [propext, Classical.choice, Quot.sound]
'TS.C70_binary32' depends on axioms: [propext, Classical.choice, Quot.sound]
'TS.C70_exact' depends on axioms: [propext, Classical.choice, Quot.sound]
'TS.C70_momentum' depends on axioms: [propext, Classical.choice, Quot.sound]
'TS.C70_crossover' depends on axioms: [propext, Classical.choice, Quot.sound]
'TS.C70_return' depends on axioms: [propext, Classical.choice, Quot.sound]
'TS.C70_heikin_ashi' depends on axioms: [propext, Classical.choice, Quot.sound]
'TS.C70_msd' depends on axioms: [propext, Classical.choice, Quot.sound]
'TS.C70_bollinger' depends on axioms: [propext, Classical.choice, Quot.sound]
'TS.C70_msd_binary32' depends on axioms: [propext, Classical.choice, Quot.sound]
'TS.C70_rsi' depends on axioms: [propext, Classical.choice, Quot.sound]
'TS.C70_rsi_binary32' depends on axioms: [propext, Classical.choice, Quot.sound]
'TS.C70_drawdown' depends on axioms: [propext, Classical.choice, Quot.sound]
'TS.C70_sharpe' depends on axioms: [propext, Classical.choice, Quot.sound]
'TS.C70_sharpe_binary32' depends on axioms: [propext, Classical.choice, Quot.sound]
'TS.C70_correlation' depends on axioms: [propext, Classical.choice, Quot.sound]
'TS.C70_correlation_binary32' depends on axioms: [propext, Classical.choice, Quot.sound]
'TS.C70_cross' depends on axioms: [propext, Classical.choice, Quot.sound]
'TS.C70_auto' depends on axioms: [propext, Classical.choice, Quot.sound]
'TS.C70_cross_binary32' depends on axioms: [propext, Classical.choice, Quot.sound]
'TS.C70_auto_binary32' depends on axioms: [propext, Classical.choice, Quot.sound]
'TS.C70_skewness' depends on axioms: [propext, Classical.choice, Quot.sound]
'TS.C70_skewness_binary32' depends on axioms: [propext, Classical.choice, Quot.sound]
'TS.C70_logReturn' depends on axioms: [propext, Classical.choice, Quot.sound]
'TS.C70_volatility' depends on axioms: [propext, Classical.choice, Quot.sound]
'TS.C70_logReturn_binary32' depends on axioms: [propext, Classical.choice, Quot.sound]
'TS.C70_volatility_binary32' depends on axioms: [propext, Classical.choice, Quot.sound]
'TS.C70_skewness_cancels' depends on axioms: [propext, Classical.choice, Quot.sound]
'TS.C71_counters' depends on axioms: [propext, Classical.choice, Quot.sound]
'TS.C71_int32' depends on axioms: [propext, Classical.choice, Quot.sound]
'TS.C71_floats' depends on axioms: [propext, Classical.choice, Quot.sound]
'TS.C71_signals' depends on axioms: [propext, Classical.choice, Quot.sound]
'TS.C71_signs_exact' depends on axioms: [propext, Classical.choice, Quot.sound]
'TS.C71_signs_binary32' depends on axioms: [propext, Classical.choice, Quot.sound]
'TS.C72_map_compose' depends on axioms: [propext, Classical.choice, Quot.sound]
'TS.C72_map_join' depends on axioms: [propext, Classical.choice, Quot.sound]
'TS.C72_map_identity' depends on axioms: [propext, Classical.choice, Quot.sound]
'TS.C72_interchange' depends on axioms: [propext, Classical.choice, Quot.sound]
'TS.C73_ema' depends on axioms: [propext, Classical.choice, Quot.sound]
'TS.C73_rma' depends on axioms: [propext, Classical.choice, Quot.sound]
'TS.C73_atr' depends on axioms: [propext, Classical.choice, Quot.sound]
'TS.C73_ema_weights' depends on axioms: [propext, Classical.choice, Quot.sound]
'TS.C73_rma_weights' depends on axioms: [propext, Classical.choice, Quot.sound]
'TS.C74_list_or_tuple' depends on axioms: [propext, Classical.choice, Quot.sound]
'TS.C74_one_input' depends on axioms: [propext, Classical.choice, Quot.sound]
'TS.C74_one_row' depends on axioms: [propext, Classical.choice, Quot.sound]
'TS.C74_no_state' depends on axioms: [propext]
'TS.C74_abstract' depends on axioms: [propext, Quot.sound]
'TS.C74_abstract_error' depends on axioms: [propext, Classical.choice, Quot.sound]
'TS.C75_averages' depends on axioms: [propext, Classical.choice, Quot.sound]
'TS.C75_lag_extrema' depends on axioms: [propext, Classical.choice, Quot.sound]
'TS.C75_deviation' depends on axioms: [propext, Classical.choice, Quot.sound]
'TS.C75_macd' depends on axioms: [propext, Classical.choice, Quot.sound]
'TS.C75_differences' depends on axioms: [propext, Classical.choice, Quot.sound]
'TS.C75_return' depends on axioms: [propext, Classical.choice, Quot.sound]
'TS.C75_volatility' depends on axioms: [propext, Classical.choice, Quot.sound]
'TS.C75_compose' depends on axioms: [propext, Classical.choice, Quot.sound]
'TS.C76_averages' depends on axioms: [propext, Classical.choice, Quot.sound]
'TS.C76_rma' depends on axioms: [propext, Classical.choice, Quot.sound]
'TS.C76_momentum' depends on axioms: [propext, Classical.choice, Quot.sound]
'TS.C76_crossover' depends on axioms: [propext, Classical.choice, Quot.sound]
'TS.C76_macd' depends on axioms: [propext, Classical.choice, Quot.sound]
'TS.C76_extrema' depends on axioms: [propext, Classical.choice, Quot.sound]
'TS.C76_silent' depends on axioms: [propext, Classical.choice, Quot.sound]
'TS.C76_rsi' depends on axioms: [propext, Classical.choice, Quot.sound]
'TS.C76_deviation' depends on axioms: [propext, Classical.choice, Quot.sound]
'TS.C76_skewness' depends on axioms: [propext, Classical.choice, Quot.sound]
'TS.C76_growth' depends on axioms: [propext, Classical.choice, Quot.sound]
'TS.C76_log_growth' depends on axioms: [propext, Classical.choice, Quot.sound]
'TS.C77_averages' depends on axioms: [propext, Classical.choice, Quot.sound]
'TS.C77_changes' depends on axioms: [propext, Classical.choice, Quot.sound]
'TS.C77_macd' depends on axioms: [propext, Classical.choice, Quot.sound]
'TS.C77_lag' depends on axioms: [propext, Classical.choice, Quot.sound]
'TS.C77_lossy' depends on axioms: [propext, Classical.choice, Quot.sound]
'TS.C78_averages' depends on axioms: [propext, Classical.choice, Quot.sound]
'TS.C78_extrema' depends on axioms: [propext, Classical.choice, Quot.sound]
'TS.C78_ordered' depends on axioms: [propext, Classical.choice, Quot.sound]
'TS.C78_moments' depends on axioms: [propext, Classical.choice, Quot.sound]
'TS.C78_correlation' depends on axioms: [propext, Classical.choice, Quot.sound]
'TS.C78_sharpe' depends on axioms: [propext, Classical.choice, Quot.sound]
'TS.C79_extrema' depends on axioms: [propext, Classical.choice, Quot.sound]
'TS.C79_averages' depends on axioms: [propext, Classical.choice, Quot.sound]
'TS.C79_deviation' depends on axioms: [propext, Classical.choice, Quot.sound]
'TS.C79_bollinger' depends on axioms: [propext, Classical.choice, Quot.sound]
'TS.C79_chebyshev' depends on axioms: [propext, Classical.choice, Quot.sound]
'TS.C80_correlation' depends on axioms: [propext, Classical.choice, Quot.sound]
'TS.C80_cross' depends on axioms: [propext, Classical.choice, Quot.sound]
'TS.C80_auto' depends on axioms: [propext, Classical.choice, Quot.sound]
'TS.C80_delay' depends on axioms: [propext, Classical.choice, Quot.sound]
'TS.C80_direction' depends on axioms: [propext, Classical.choice, Quot.sound]
'TS.C80_periodic' depends on axioms: [propext, Classical.choice, Quot.sound]
'TS.C81_static_sound' depends on axioms: [propext, Quot.sound]
'TS.C81_static_exact' depends on axioms: [propext, Classical.choice, Quot.sound]
'TS.C81_typed' depends on axioms: [propext, Classical.choice, Quot.sound]
'TS.C82_sma' depends on axioms: [propext, Classical.choice, Quot.sound]
'TS.C82_msd' depends on axioms: [propext, Classical.choice, Quot.sound]
'TS.C82_lag' depends on axioms: [propext, Classical.choice, Quot.sound]
'TS.C82_localMin' depends on axioms: [propext, Classical.choice, Quot.sound]
'TS.C82_localMax' depends on axioms: [propext, Classical.choice, Quot.sound]
'TS.C82_correlation' depends on axioms: [propext, Classical.choice, Quot.sound]
'TS.C82_return' depends on axioms: [propext, Classical.choice, Quot.sound]
'TS.C82_logReturn' depends on axioms: [propext, Classical.choice, Quot.sound]
'TS.C82_sharpe' depends on axioms: [propext, Classical.choice, Quot.sound]
'TS.C82_skewness' depends on axioms: [propext, Classical.choice, Quot.sound]
'TS.C82_rsi' depends on axioms: [propext, Classical.choice, Quot.sound]
'TS.C82_bollinger' depends on axioms: [propext, Classical.choice, Quot.sound]
'TS.C82_ema' depends on axioms: [propext, Classical.choice, Quot.sound]
'TS.C82_rma' depends on axioms: [propext, Classical.choice, Quot.sound]
'TS.C82_ema_zero' depends on axioms: [propext, Classical.choice, Quot.sound]
'TS.C82_momentum' depends on axioms: [propext, Classical.choice, Quot.sound]
'TS.C82_cross' depends on axioms: [propext, Classical.choice, Quot.sound]
'TS.C82_ema_zero_alternating' depends on axioms: [propext, Classical.choice, Quot.sound]
'TS.C82_rma_zero' depends on axioms: [propext, Classical.choice, Quot.sound]
'TS.C82_volatility' depends on axioms: [propext, Classical.choice, Quot.sound]
'TS.C82_crossover' depends on axioms: [propext, Classical.choice, Quot.sound]
'TS.C82_crossover_signal' depends on axioms: [propext, Classical.choice, Quot.sound]
'TS.C82_riskRatio' depends on axioms: [propext, Classical.choice, Quot.sound]
'TS.C82_auto' depends on axioms: [propext, Classical.choice, Quot.sound]
'TS.C82_atr' depends on axioms: [propext, Classical.choice, Quot.sound]
'TS.C82_macd' depends on axioms: [propext, Classical.choice, Quot.sound]
'TS.C82_macd_signal' depends on axioms: [propext, Classical.choice, Quot.sound]
'TS.C83_step' depends on axioms: [propext, Classical.choice, Quot.sound]
'TS.C83_stream' depends on axioms: [propext, Classical.choice, Quot.sound]
'TS.C83_parts' depends on axioms: [propext, Classical.choice, Quot.sound]
'TS.C84_accepts' depends on axioms: [propext, Classical.choice, Quot.sound]
'TS.C84_rsi' depends on axioms: [propext, Classical.choice, Quot.sound]
'TS.C84_indicators' depends on axioms: [propext, Classical.choice, Quot.sound]
'TS.C85_trades' depends on axioms: [propext, Classical.choice, Quot.sound]
'TS.C85_backtest' depends on axioms: [propext, Classical.choice, Quot.sound]
'TS.C85_bounded' depends on axioms: [propext, Classical.choice, Quot.sound]
'TS.C85_crossover' depends on axioms: [propext, Classical.choice, Quot.sound]
'TS.C85_macd' depends on axioms: [propext, Classical.choice, Quot.sound]
'TS.C86_shapes' depends on axioms: [propext, Classical.choice, Quot.sound]
'TS.C86_cold' depends on axioms: [propext, Classical.choice, Quot.sound]
'TS.C86_vector_number' depends on axioms: [propext, Classical.choice, Quot.sound]
'TS.C86_number_vector' depends on axioms: [propext, Classical.choice, Quot.sound]
'TS.C86_misaligned' depends on axioms: [propext, Classical.choice, Quot.sound]
'TS.C86_uninformative' depends on axioms: [propext, Classical.choice, Quot.sound]
'TS.C86_cross' depends on axioms: [propext, Classical.choice, Quot.sound]
'TS.C87_before' depends on axioms: [propext, Classical.choice, Quot.sound]
'TS.C87_sma' depends on axioms: [propext, Classical.choice, Quot.sound]
'TS.C87_msd' depends on axioms: [propext, Classical.choice, Quot.sound]
'TS.C87_setDuring' depends on axioms: [propext, Classical.choice, Quot.sound]
'TS.C87_correlation' depends on axioms: [propext, Classical.choice, Quot.sound]
'TS.C87_localMinimum' depends on axioms: [propext, Classical.choice, Quot.sound]
'TS.C87_localMaximum' depends on axioms: [propext, Classical.choice, Quot.sound]
'TS.C87_skewness' depends on axioms: [propext, Classical.choice, Quot.sound]
'TS.C87_sharpe' depends on axioms: [propext, Classical.choice, Quot.sound]
'TS.C87_ema' depends on axioms: [propext, Classical.choice, Quot.sound]
'TS.C87_rma' depends on axioms: [propext, Classical.choice, Quot.sound]
'TS.C87_averages_agree' depends on axioms: [propext, Classical.choice, Quot.sound]
'TS.C87_unaffected' depends on axioms: [propext, Classical.choice, Quot.sound]
'TS.C87_after' depends on axioms: [propext, Classical.choice, Quot.sound]
'TS.C87_infinite' depends on axioms: [propext, Classical.choice, Quot.sound]
'TS.C87_drawdown' depends on axioms: [propext, Classical.choice, Quot.sound]
'TS.C87_returns' depends on axioms: [propext, Classical.choice, Quot.sound]
'TS.C87_rsi' depends on axioms: [propext, Classical.choice, Quot.sound]
'TS.C87_crossCorrelation' depends on axioms: [propext, Classical.choice, Quot.sound]
'TS.C87_autoCorrelation' depends on axioms: [propext, Classical.choice, Quot.sound]
'TS.C87_macd' depends on axioms: [propext, Classical.choice, Quot.sound]
'TS.C87_atr' depends on axioms: [propext, Classical.choice, Quot.sound]
'TS.C88_sma' depends on axioms: [propext, Classical.choice, Quot.sound]
'TS.C88_ema' depends on axioms: [propext, Classical.choice, Quot.sound]
'TS.C88_rma' depends on axioms: [propext, Classical.choice, Quot.sound]
'TS.C88_lag' depends on axioms: [propext, Classical.choice, Quot.sound]
'TS.C88_momentum' depends on axioms: [propext, Classical.choice, Quot.sound]
'TS.C88_ema_one' depends on axioms: [propext, Classical.choice, Quot.sound]
'TS.C88_rma_one' depends on axioms: [propext, Classical.choice, Quot.sound]
'TS.C88_crossover' depends on axioms: [propext, Classical.choice, Quot.sound]
'TS.C88_correlation' depends on axioms: [propext, Classical.choice, Quot.sound]
'TS.C88_return' depends on axioms: [propext, Classical.choice, Quot.sound]
'TS.C88_msd' depends on axioms: [propext, Classical.choice, Quot.sound]
'TS.C88_skewness' depends on axioms: [propext, Classical.choice, Quot.sound]
'TS.C88_bollinger' depends on axioms: [propext, Classical.choice, Quot.sound]
'TS.C88_macd' depends on axioms: [propext, Classical.choice, Quot.sound]
'TS.C88_sharpe' depends on axioms: [propext, Classical.choice, Quot.sound]
'TS.C88_rsi' depends on axioms: [propext, Classical.choice, Quot.sound]
'TS.C89_sma_msd' depends on axioms: [propext, Classical.choice, Quot.sound]
'TS.C89_msd_sma' depends on axioms: [propext, Classical.choice, Quot.sound]
'TS.C89_bollinger' depends on axioms: [propext, Classical.choice, Quot.sound]
'TS.C89_ema' depends on axioms: [propext, Classical.choice, Quot.sound]
'TS.C89_rma' depends on axioms: [propext, Classical.choice, Quot.sound]
'TS.C89_macd' depends on axioms: [propext, Classical.choice, Quot.sound]
'TS.C89_correlation' depends on axioms: [propext, Classical.choice, Quot.sound]
'TS.C89_cross' depends on axioms: [propext, Classical.choice, Quot.sound]
'TS.C89_auto' depends on axioms: [propext, Classical.choice, Quot.sound]
'TS.C89_atr' depends on axioms: [propext, Classical.choice, Quot.sound]
'TS.C89_return' depends on axioms: [propext, Classical.choice, Quot.sound]
'TS.C89_skewness' depends on axioms: [propext, Classical.choice, Quot.sound]
'TS.C89_crossover' depends on axioms: [propext, Classical.choice, Quot.sound]
'TS.C90_sma' depends on axioms: [propext, Classical.choice, Quot.sound]
'TS.C90_ema' depends on axioms: [propext, Classical.choice, Quot.sound]
'TS.C90_rma' depends on axioms: [propext, Classical.choice, Quot.sound]
'TS.C90_lag' depends on axioms: [propext, Classical.choice, Quot.sound]
'TS.C90_local_max' depends on axioms: [propext, Classical.choice, Quot.sound]
'TS.C90_global_max' depends on axioms: [propext, Classical.choice, Quot.sound]
'TS.C90_local_min' depends on axioms: [propext, Classical.choice, Quot.sound]
'TS.C90_global_min' depends on axioms: [propext, Classical.choice, Quot.sound]
'TS.C90_warm_up' depends on axioms: [propext, Classical.choice, Quot.sound]
'TS.C90_momentum' depends on axioms: [propext, Classical.choice, Quot.sound]
'TS.C91_lag' depends on axioms: [propext, Classical.choice, Quot.sound]
'TS.C91_momentum' depends on axioms: [propext, Classical.choice, Quot.sound]
'TS.C91_sma' depends on axioms: [propext, Classical.choice, Quot.sound]
'TS.C91_crossover' depends on axioms: [propext, Classical.choice, Quot.sound]
'TS.C91_unique' depends on axioms: [propext, Classical.choice, Quot.sound]
'TS.C91_compose' depends on axioms: [propext, Classical.choice, Quot.sound]
'TS.C91_agree' depends on axioms: [propext, Classical.choice, Quot.sound]
'TS.C91_commute' depends on axioms: [propext, Classical.choice, Quot.sound]
'TS.C91_orders' depends on axioms: [propext, Classical.choice, Quot.sound]
'TS.C91_sma_step' depends on axioms: [propext, Classical.choice, Quot.sound]
'TS.C91_recursive' depends on axioms: [propext, Classical.choice, Quot.sound]
'TS.C92_sma' depends on axioms: [propext, Classical.choice, Quot.sound]
'TS.C92_ema' depends on axioms: [propext, Classical.choice, Quot.sound]
'TS.C92_rma' depends on axioms: [propext, Classical.choice, Quot.sound]
'TS.C92_lag' depends on axioms: [propext, Classical.choice, Quot.sound]
'TS.C92_compose' depends on axioms: [propext, Classical.choice, Quot.sound]
'TS.C92_momentum' depends on axioms: [propext, Classical.choice, Quot.sound]
'TS.C92_local_max' depends on axioms: [propext, Classical.choice, Quot.sound]
'TS.C93_lag' depends on axioms: [propext, Classical.choice, Quot.sound]
'TS.C93_sma' depends on axioms: [propext, Classical.choice, Quot.sound]
'TS.C93_msd' depends on axioms: [propext, Classical.choice, Quot.sound]
'TS.C93_local_min' depends on axioms: [propext, Classical.choice, Quot.sound]
'TS.C93_local_max' depends on axioms: [propext, Classical.choice, Quot.sound]
'TS.C93_ema' depends on axioms: [propext, Classical.choice, Quot.sound]
'TS.C93_rma' depends on axioms: [propext, Classical.choice, Quot.sound]
'TS.C93_return' depends on axioms: [propext, Classical.choice, Quot.sound]
'TS.C93_logReturn' depends on axioms: [propext, Classical.choice, Quot.sound]
'TS.C93_return_longer' depends on axioms: [propext, Classical.choice, Quot.sound]
'TS.C93_logReturn_longer' depends on axioms: [propext, Classical.choice, Quot.sound]
'TS.C93_skewness' depends on axioms: [propext, Classical.choice, Quot.sound]
'TS.C93_sharpe' depends on axioms: [propext, Classical.choice, Quot.sound]
'TS.C93_rsi' depends on axioms: [propext, Classical.choice, Quot.sound]
'TS.C93_correlation' depends on axioms: [propext, Classical.choice, Quot.sound]
'TS.C93_bollinger' depends on axioms: [propext, Classical.choice, Quot.sound]
'TS.C93_momentum' depends on axioms: [propext, Classical.choice, Quot.sound]
'TS.C93_crossover' depends on axioms: [propext, Classical.choice, Quot.sound]
'TS.C94_rolling_exponential' depends on axioms: [propext, Classical.choice, Quot.sound]
'TS.C94_variance' depends on axioms: [propext, Classical.choice, Quot.sound]
'TS.C94_sharpe' depends on axioms: [propext, Classical.choice, Quot.sound]
'TS.C94_skewness' depends on axioms: [propext, Classical.choice, Quot.sound]
'TS.C94_correlation' depends on axioms: [propext, Classical.choice, Quot.sound]
'TS.C94_atr' depends on axioms: [propext, Classical.choice, Quot.sound]
'TS.C94_rsi' depends on axioms: [propext, Classical.choice, Quot.sound]
'TS.C95_global_min' depends on axioms: [propext, Classical.choice, Quot.sound]
'TS.C95_global_max' depends on axioms: [propext, Classical.choice, Quot.sound]
'TS.C95_local_min' depends on axioms: [propext, Classical.choice, Quot.sound]
'TS.C95_local_max' depends on axioms: [propext, Classical.choice, Quot.sound]
'TS.C95_lag' depends on axioms: [propext, Classical.choice, Quot.sound]
'TS.C95_momentum' depends on axioms: [propext, Classical.choice, Quot.sound]
'TS.C95_sma' depends on axioms: [propext, Classical.choice, Quot.sound]
'TS.C95_ema' depends on axioms: [propext, Classical.choice, Quot.sound]
'TS.C95_rma' depends on axioms: [propext, Classical.choice, Quot.sound]
'TS.C95_zero_crossover' depends on axioms: [propext, Classical.choice, Quot.sound]
'TS.C96_return' depends on axioms: [propext, Classical.choice, Quot.sound]
'TS.C96_rsi' depends on axioms: [propext, Classical.choice, Quot.sound]
'TS.C96_rsi_one' depends on axioms: [propext, Classical.choice, Quot.sound]
'TS.C96_correlation' depends on axioms: [propext, Classical.choice, Quot.sound]
'TS.C96_msd' depends on axioms: [propext, Classical.choice, Quot.sound]
'TS.C97_rsi' depends on axioms: [propext, Classical.choice, Quot.sound]
'TS.C97_rsi_one' depends on axioms: [propext, Classical.choice, Quot.sound]
'TS.C97_msd' depends on axioms: [propext, Classical.choice, Quot.sound]
'TS.C97_return' depends on axioms: [propext, Classical.choice, Quot.sound]
'TS.C97_atr' depends on axioms: [propext, Classical.choice, Quot.sound]
'TS.C97_sharpe' depends on axioms: [propext, Classical.choice, Quot.sound]
'TS.C97_correlation' depends on axioms: [propext, Classical.choice, Quot.sound]
'TS.C97_correlation_two' depends on axioms: [propext, Classical.choice, Quot.sound]
'TS.C97_correlation_one' depends on axioms: [propext, Classical.choice, Quot.sound]
'TS.C97_drawdown' depends on axioms: [propext, Classical.choice, Quot.sound]
'TS.C97_skewness' depends on axioms: [propext, Classical.choice, Quot.sound]
'TS.C97_bollinger' depends on axioms: [propext, Classical.choice, Quot.sound]
'TS.C97_zero_crossover' depends on axioms: [propext, Classical.choice, Quot.sound]
'TS.C98_sma' depends on axioms: [propext, Classical.choice, Quot.sound]
'TS.C98_ema' depends on axioms: [propext, Classical.choice, Quot.sound]
'TS.C98_rma' depends on axioms: [propext, Classical.choice, Quot.sound]
'TS.C98_momentum' depends on axioms: [propext, Classical.choice, Quot.sound]
'TS.C98_lag' depends on axioms: [propext, Classical.choice, Quot.sound]
'TS.C98_global_min' depends on axioms: [propext, Classical.choice, Quot.sound]
'TS.C98_global_max' depends on axioms: [propext, Classical.choice, Quot.sound]
'TS.C98_return' depends on axioms: [propext, Classical.choice, Quot.sound]
'TS.C98_zero_crossover' depends on axioms: [propext, Classical.choice, Quot.sound]
'TS.C98_local_max' depends on axioms: [propext, Classical.choice, Quot.sound]
'TS.C98_local_min' depends on axioms: [propext, Classical.choice, Quot.sound]
'TS.C98_atr' depends on axioms: [propext, Classical.choice, Quot.sound]
'TS.C98_rsi' depends on axioms: [propext, Classical.choice, Quot.sound]
'TS.C98_rsi_one' depends on axioms: [propext, Classical.choice, Quot.sound]
'TS.C98_crossover' depends on axioms: [propext, Classical.choice, Quot.sound]
'TS.C98_crossover_signal' depends on axioms: [propext, Classical.choice, Quot.sound]
'TS.C98_macd_signal' depends on axioms: [propext, Classical.choice, Quot.sound]
'TS.C99_lag' depends on axioms: [propext, Classical.choice, Quot.sound]
'TS.C99_momentum' depends on axioms: [propext, Classical.choice, Quot.sound]
'TS.C99_return' depends on axioms: [propext, Classical.choice, Quot.sound]
'TS.C99_local_max' depends on axioms: [propext, Classical.choice, Quot.sound]
'TS.C99_local_min' depends on axioms: [propext, Classical.choice, Quot.sound]
'TS.C99_global_max' depends on axioms: [propext, Classical.choice, Quot.sound]
'TS.C99_global_min' depends on axioms: [propext, Classical.choice, Quot.sound]
'TS.C99_sma' depends on axioms: [propext, Classical.choice, Quot.sound]
'TS.C99_crossover' depends on axioms: [propext, Classical.choice, Quot.sound]
'TS.C99_msd' depends on axioms: [propext, Classical.choice, Quot.sound]
'TS.C99_bollinger' depends on axioms: [propext, Classical.choice, Quot.sound]
'TS.C99_skewness' depends on axioms: [propext, Classical.choice, Quot.sound]
'TS.C99_sharpe' depends on axioms: [propext, Classical.choice, Quot.sound]
'TS.C99_correlation' depends on axioms: [propext, Classical.choice, Quot.sound]
'TS.C99_zero_crossover' depends on axioms: [propext, Classical.choice, Quot.sound]
'TS.C100_sma' depends on axioms: [propext, Classical.choice, Quot.sound]
'TS.C100_local_max' depends on axioms: [propext, Classical.choice, Quot.sound]
'TS.C100_local_min' depends on axioms: [propext, Classical.choice, Quot.sound]
'TS.C100_msd' depends on axioms: [propext, Classical.choice, Quot.sound]
'TS.C100_bollinger' depends on axioms: [propext, Classical.choice, Quot.sound]
'TS.C100_skewness' depends on axioms: [propext, Classical.choice, Quot.sound]
'TS.C100_sharpe' depends on axioms: [propext, Classical.choice, Quot.sound]
'TS.C100_momentum' depends on axioms: [propext, Classical.choice, Quot.sound]
'TS.C100_return' depends on axioms: [propext, Classical.choice, Quot.sound]
'TS.C100_lag' depends on axioms: [propext, Classical.choice, Quot.sound]
'TS.C100_global' depends on axioms: [propext, Classical.choice, Quot.sound]
'TS.C100_zero_crossover' depends on axioms: [propext, Classical.choice, Quot.sound]
'TS.C100_correlation' depends on axioms: [propext, Classical.choice, Quot.sound]
'TS.C101_lag' depends on axioms: [propext, Classical.choice, Quot.sound]
'TS.C101_momentum' depends on axioms: [propext, Classical.choice, Quot.sound]
'TS.C101_return' depends on axioms: [propext, Classical.choice, Quot.sound]
'TS.C101_logReturn' depends on axioms: [propext, Classical.choice, Quot.sound]
'TS.C101_local' depends on axioms: [propext, Classical.choice, Quot.sound]
'TS.C101_global' depends on axioms: [propext, Classical.choice, Quot.sound]
'TS.C101_drawdown' depends on axioms: [propext, Classical.choice, Quot.sound]
'TS.C102_lag' depends on axioms: [propext, Classical.choice, Quot.sound]
'TS.C102_momentum' depends on axioms: [propext, Classical.choice, Quot.sound]
'TS.C102_return' depends on axioms: [propext, Classical.choice, Quot.sound]
'TS.C102_sma' depends on axioms: [propext, Classical.choice, Quot.sound]
'TS.C102_ema' depends on axioms: [propext, Classical.choice, Quot.sound]
'TS.C102_rma' depends on axioms: [propext, Classical.choice, Quot.sound]
'TS.C102_zero_crossover' depends on axioms: [propext, Classical.choice, Quot.sound]
'TS.C102_crossover_signal' depends on axioms: [propext, Classical.choice, Quot.sound]
'TS.C102_macd_signal' depends on axioms: [propext, Classical.choice, Quot.sound]
'TS.C102_logReturn' depends on axioms: [propext, Classical.choice, Quot.sound]
'TS.C103_global' depends on axioms: [propext, Classical.choice, Quot.sound]
'TS.C103_local' depends on axioms: [propext, Classical.choice, Quot.sound]
'TS.C103_extrema' depends on axioms: [propext, Classical.choice, Quot.sound]
'TS.C103_msd' depends on axioms: [propext, Classical.choice, Quot.sound]
'TS.C103_msd_difference' depends on axioms: [propext, Classical.choice, Quot.sound]
'TS.C103_bollinger' depends on axioms: [propext, Classical.choice, Quot.sound]
'TS.C104_lag' depends on axioms: [propext, Classical.choice, Quot.sound]
'TS.C104_momentum' depends on axioms: [propext, Classical.choice, Quot.sound]
'TS.C104_return' depends on axioms: [propext, Classical.choice, Quot.sound]
'TS.C104_sma' depends on axioms: [propext, Classical.choice, Quot.sound]
'TS.C104_local' depends on axioms: [propext, Classical.choice, Quot.sound]
'TS.C104_global' depends on axioms: [propext, Classical.choice, Quot.sound]
'TS.C104_zero_crossover' depends on axioms: [propext, Classical.choice, Quot.sound]
'TS.C104_ema' depends on axioms: [propext, Classical.choice, Quot.sound]
'TS.C104_rma' depends on axioms: [propext, Classical.choice, Quot.sound]
'TS.C104_rsi' depends on axioms: [propext, Classical.choice, Quot.sound]
'TS.C104_drawdown' depends on axioms: [propext, Classical.choice, Quot.sound]
'TS.C104_heikin_ashi' depends on axioms: [propext, Classical.choice, Quot.sound]
'TS.C104_msd' depends on axioms: [propext, Classical.choice, Quot.sound]
'TS.C104_skewness' depends on axioms: [propext, Classical.choice, Quot.sound]
'TS.C104_sma_crossover' depends on axioms: [propext, Classical.choice, Quot.sound]
'TS.C104_atr' depends on axioms: [propext, Classical.choice, Quot.sound]
'TS.C104_bollinger' depends on axioms: [propext, Classical.choice, Quot.sound]
'TS.C104_sharpe' depends on axioms: [propext, Classical.choice, Quot.sound]
'TS.C104_correlation' depends on axioms: [propext, Classical.choice, Quot.sound]
'TS.C104_macd' depends on axioms: [propext, Classical.choice, Quot.sound]
'TS.C105_lag' depends on axioms: [propext, Classical.choice, Quot.sound]
'TS.C105_return' depends on axioms: [propext, Classical.choice, Quot.sound]
'TS.C105_momentum' depends on axioms: [propext, Classical.choice, Quot.sound]
'TS.C105_sma' depends on axioms: [propext, Classical.choice, Quot.sound]
'TS.C105_zero_crossover' depends on axioms: [propext, Classical.choice, Quot.sound]
'TS.C105_global_max' depends on axioms: [propext, Classical.choice, Quot.sound]
'TS.C105_local_max' depends on axioms: [propext, Classical.choice, Quot.sound]
'TS.C105_global_min' depends on axioms: [propext, Classical.choice, Quot.sound]
'TS.C105_local_min' depends on axioms: [propext, Classical.choice, Quot.sound]
'TS.C105_ema' depends on axioms: [propext, Classical.choice, Quot.sound]
'TS.C105_rma' depends on axioms: [propext, Classical.choice, Quot.sound]
'TS.C105_drawdown' depends on axioms: [propext, Classical.choice, Quot.sound]
'TS.C105_heikin_ashi' depends on axioms: [propext, Classical.choice, Quot.sound]
'TS.C105_sma_crossover' depends on axioms: [propext, Classical.choice, Quot.sound]
'TS.C105_bollinger' depends on axioms: [propext, Classical.choice, Quot.sound]
'TS.C105_msd' depends on axioms: [propext, Classical.choice, Quot.sound]
'TS.C105_rsi' depends on axioms: [propext, Classical.choice, Quot.sound]
'TS.C105_atr' depends on axioms: [propext, Classical.choice, Quot.sound]
'TS.C105_sharpe' depends on axioms: [propext, Classical.choice, Quot.sound]
'TS.C105_macd' depends on axioms: [propext, Classical.choice, Quot.sound]
'TS.C105_correlation' depends on axioms: [propext, Classical.choice, Quot.sound]
'TS.C105_equivalence' depends on axioms: [propext]
'TS.C105_same_state' depends on axioms: [propext]
'TS.C105_extends' depends on axioms: [propext, Classical.choice, Quot.sound]
