# Axioms of the claimed theorems

Output of `#print axioms` for every theorem named in MANIFEST.json.

| property | theorem | axioms |
|---|---|---|
| C01 | `Snek.C01_number_roundtrip` | propext, Classical.choice, Quot.sound |
| C01 | `Snek.C01_reference_roundtrip` | propext, Classical.choice, Quot.sound |
| C01 | `Snek.C01_builtin_roundtrip` | propext, Classical.choice, Quot.sound |
| C01 | `Snek.C01_markers_distinct` | propext, Classical.choice, Quot.sound |
| C01 | `Snek.C01_reference_injective` | propext, Classical.choice, Quot.sound |
| C02 | `Snek.C02_operators` | propext, Classical.choice, Quot.sound |
| C02 | `Snek.C02_trichotomy` | propext, Classical.choice, Quot.sound |
| C02 | `Snek.C02_order` | propext, Classical.choice, Quot.sound |
| C02 | `Snek.C02_kinds` | propext, Quot.sound |
| C02 | `Snek.C02_nan` | propext |
| C02 | `Snek.C02_violated_math_nan` | propext |
| C03 | `Snek.C03_equality` | propext, Classical.choice, Quot.sound |
| C03 | `Snek.C03_less_sound` | propext, Classical.choice, Quot.sound |
| C03 | `Snek.C03_lexicographic_partial` | propext, Classical.choice, Quot.sound |
| C03 | `Snek.C03_antisymmetric_partial` | propext, Classical.choice, Quot.sound |
| C03 | `Snek.C03_spec_total` | propext, Classical.choice, Quot.sound |
| C03 | `Snek.C03_violated_prefix` | propext, Classical.choice, Quot.sound |
| C04 | `Snek.C04_slice_partial` | propext, Classical.choice, Quot.sound |
| C04 | `Snek.C04_violated_reserved_bound` | propext |
| C04 | `Snek.C04_violated_truncation` | propext |
| C04 | `Snek.C04_violated_overflow` | propext |
| C04 | `Snek.Store.C04_list_partial` | propext, Classical.choice, Quot.sound |
| C04 | `Snek.Store.C04_string_partial` | propext, Classical.choice, Quot.sound |
| C05 | `Snek.Store.C05_list_get` | propext, Classical.choice, Quot.sound |
| C05 | `Snek.Store.C05_string_get` | propext, Classical.choice, Quot.sound |
| C05 | `Snek.Store.C05_list_store` | propext, Classical.choice, Quot.sound |
| C05 | `Snek.Store.C05_list_del` | propext, Classical.choice, Quot.sound |
| C05 | `Snek.Store.C05_get_safe` | propext, Classical.choice, Quot.sound |
| C05 | `Snek.Store.C05_store_safe` | propext, Quot.sound |
| C05 | `Snek.Store.C05_violated_fraction` | propext, Quot.sound |
| C05 | `Snek.Store.C05_violated_store` | propext, Quot.sound |
| C05 | `Snek.Store.C05_violated_del` | propext, Quot.sound |
| C06 | `Snek.C06_map_partial` | propext, Classical.choice, Quot.sound |
| C06 | `Snek.C06_literal` | propext, Quot.sound |
| C06 | `Snek.C06_scalar_keys` | propext |
| C06 | `Snek.C06_violated_tuple_prefix` | propext, Quot.sound |
| C06 | `Snek.Store.C06_heap_partial` | propext, Classical.choice, Quot.sound |
| C06 | `Snek.Store.C06_heap_store_partial` | propext, Classical.choice, Quot.sound |
| C06 | `Snek.Store.C08_heap_partial` | propext, Classical.choice, Quot.sound |
| C06 | `Snek.Store.C07_heap_partial` | propext, Classical.choice, Quot.sound |
| C06 | `Snek.Store.C06_heap_display_partial` | propext, Classical.choice, Quot.sound |
| C07 | `Snek.C07_canonical_partial` | propext, Classical.choice, Quot.sound |
| C08 | `Snek.C08_delete_partial` | propext, Classical.choice, Quot.sound |
| C09 | `Snek.Store.C09_present_number` | propext, Quot.sound |
| C09 | `Snek.Store.C09_present` | propext, Classical.choice, Quot.sound |
| C09 | `Snek.Store.C09_absent_partial` | propext, Quot.sound |
| C09 | `Snek.Store.C09_violated_absent` | propext, Quot.sound |
| C09 | `Snek.Store.C09_violated_neighbour` | propext, Quot.sound |
| C10 | `Snek.Store.C10_plus` | propext, Quot.sound |
| C10 | `Snek.Store.C10_times` | propext, Classical.choice, Quot.sound |
| C10 | `Snek.Store.C10_append` | propext, Quot.sound |
| C10 | `Snek.Store.C10_plus_refused` | propext, Quot.sound |
| C10 | `Snek.Store.C10_violated_negative` | propext, Quot.sound |
| C11 | `Snek.Store.C11_strings` | propext, Quot.sound |
| C11 | `Snek.Store.C11_tuples` | propext, Quot.sound |
| C11 | `Snek.Store.C11_store_refused` | propext, Quot.sound |
| C11 | `Snek.Store.C11_augment_refused` | propext, Quot.sound |
| C11 | `Snek.Store.C11_del_refused` | propext, Quot.sound |
| C11 | `Snek.Store.C11_tuple_augmented` | propext, Quot.sound |
| C11 | `Snek.Store.C11_string_augmented` | propext, Quot.sound |
| C12 | `Snek.C12_mutable_iff` | propext |
| C12 | `Snek.C12_mutable_refused` | propext, Quot.sound |
| C13 | `Snek.Store.C13_storage_partial` | propext, Classical.choice, Quot.sound |
| C13 | `Snek.Store.C13_growth_partial` | propext, Quot.sound |
| C13 | `Snek.Store.C13_violated_times` | propext, Quot.sound |
| C13 | `Snek.Store.C13_violated_string` | propext, Quot.sound |
| C14 | `Snek.C14_invisible` | propext, Classical.choice, Quot.sound |
| C14 | `Snek.C14_invisible_snek` | propext, Classical.choice, Quot.sound |
| C14 | `Snek.C14_collect` | propext, Classical.choice, Quot.sound |
| C14 | `Snek.C14_always` | propext, Classical.choice, Quot.sound |
| C14 | `Snek.C14_demo_state` | propext, Quot.sound |
| C14 | `Snek.Ptr.C14_containers` | propext, Classical.choice, Quot.sound |
| C15 | `Snek.C15_packed` | propext, Classical.choice, Quot.sound |
| C16 | `Snek.C16_fresh` | propext, Classical.choice, Quot.sound |
| C16 | `Snek.C16_aligned` | propext, Classical.choice, Quot.sound |
| C16 | `Snek.C16_zero` | propext, Classical.choice, Quot.sound |
| C17 | `Snek.C17_exact` | propext, Classical.choice, Quot.sound |
| C18 | `Snek.C18_tables` | propext, Classical.choice, Quot.sound |
| C19 | `Snek.C19_order` | propext, Classical.choice, Quot.sound |
| C19 | `Snek.C19_order_alloc` | propext, Classical.choice, Quot.sound |
| C20 | `Snek.C20_incremental` | propext, Classical.choice, Quot.sound |
| C20 | `Snek.C20_mark` | propext, Classical.choice, Quot.sound |
| C21 | `Snek.C21_lowest` | propext, Classical.choice, Quot.sound |
| C21 | `Snek.C21_lookup` | propext, Quot.sound |
| C22 | `Snek.Name.C22_builtin` | propext, Classical.choice, Quot.sound |
| C22 | `Snek.Name.C22_interned` | propext, Classical.choice, Quot.sound |
| C22 | `Snek.Name.C22_total` | propext, Classical.choice, Quot.sound |
| C23 | `Snek.C23_push_pop` | propext, Quot.sound |
| C23 | `Snek.C23_scoping` | propext, Quot.sound |
| C23 | `Snek.C23_rules` | propext, Quot.sound |
| C23 | `Snek.C23_violated_oom` | propext |
| C24 | `Snek.C24_cut_number` | propext, Quot.sound |
| C24 | `Snek.C24_cut_value` | propext, Quot.sound |
| C24 | `Snek.C24_bytes` | propext, Quot.sound |
| C24 | `Snek.C24_earlier_partial` | propext, Quot.sound |
| C24 | `Snek.C24_next_partial` | propext |
| C24 | `Snek.C24_last_partial` | propext, Quot.sound |
| C24 | `Snek.C24_violated` | none |
| C24 | `Snek.C24_violated_16bit` | none |
| C24 | `Snek.C24_violated_local` | propext |
| C25 | `Snek.C25_accepts` | propext, Classical.choice, Quot.sound |
| C25 | `Snek.C25_bound` | propext, Classical.choice, Quot.sound |
| C25 | `Snek.C25_good_call_partial` | propext, Classical.choice, Quot.sound |
| C25 | `Snek.C25_violated_missing` | propext, Quot.sound |
| C25 | `Snek.C25_violated_beyond` | propext, Quot.sound |
| C26 | `Snek.Lang.C26_call_returns` | propext, Classical.choice, Quot.sound |
| C26 | `Snek.Lang.C26_call_error` | propext, Classical.choice, Quot.sound |
| C26 | `Snek.Lang.C26_callers_untouched` | propext, Quot.sound |
| C26 | `Snek.Lang.C26_return_address` | propext, Classical.choice, Quot.sound |
| C26 | `Snek.Lang.C26_call_saves_return_address` | propext, Classical.choice, Quot.sound |
| C27 | `Snek.Lang.C27_prompt` | propext, Classical.choice, Quot.sound |
| C27 | `Snek.Lang.C27_prompt_error` | propext, Classical.choice, Quot.sound |
| C27 | `Snek.Lang.C27_in_context` | propext, Classical.choice, Quot.sound |
| C27 | `Snek.Lang.C27_in_context_error` | propext, Classical.choice, Quot.sound |
| C28 | `Snek.Lang.C28_and_false` | propext, Classical.choice, Quot.sound |
| C28 | `Snek.Lang.C28_and_true` | propext, Classical.choice, Quot.sound |
| C28 | `Snek.Lang.C28_and_error` | propext, Classical.choice, Quot.sound |
| C28 | `Snek.Lang.C28_or_true` | propext, Classical.choice, Quot.sound |
| C28 | `Snek.Lang.C28_or_false` | propext, Classical.choice, Quot.sound |
| C28 | `Snek.Lang.C28_or_error` | propext, Classical.choice, Quot.sound |
| C28 | `Snek.Lang.C28_left_error` | propext, Classical.choice, Quot.sound |
| C29 | `Snek.Lang.C29_chain_partial` | propext, Classical.choice, Quot.sound |
| C29 | `Snek.Lang.Demo.C29_violated_is` | propext, Quot.sound |
| C29 | `Snek.Lang.Demo.C29_violated_default` | propext, Quot.sound |
| C30 | `Snek.Lang.C30_finishes` | propext, Classical.choice, Quot.sound |
| C30 | `Snek.Lang.C30_returns` | propext, Classical.choice, Quot.sound |
| C30 | `Snek.Lang.C30_fails` | propext, Classical.choice, Quot.sound |
| C30 | `Snek.Lang.C30_stray_break` | propext, Classical.choice, Quot.sound |
| C30 | `Snek.Lang.C30_one_ending` | propext, Quot.sound |
| C30 | `Snek.Lang.C30_one_error` | propext, Quot.sound |
| C31 | `Snek.Lang.C31_falls_off_partial` | propext, Classical.choice, Quot.sound |
| C31 | `Snek.Lang.Demo.C31_violated` | propext, Quot.sound |
| C32 | `Snek.Lang.C32_range` | propext, Classical.choice, Quot.sound |
| C32 | `Snek.Lang.C32_rangeElems` | propext, Classical.choice, Quot.sound |
| C32 | `Snek.Lang.C32_container` | propext, Classical.choice, Quot.sound |
| C32 | `Snek.Lang.C32_list` | propext, Quot.sound |
| C32 | `Snek.Lang.C32_dict` | propext, Quot.sound |
| C32 | `Snek.Lang.C32_string` | propext, Quot.sound |
| C32 | `Snek.Lang.Demo.C32_violated_none` | propext, Quot.sound |
| C32 | `Snek.Lang.Demo.C32_violated_assigned` | propext, Quot.sound |
| C32 | `Snek.Lang.Demo.C32_variable_after` | propext, Quot.sound |
| C33 | `Snek.Lang.C33_mark_command_partial` | propext, Classical.choice, Quot.sound |
| C33 | `Snek.Lang.C33_mark_function_partial` | propext, Classical.choice, Quot.sound |
| C33 | `Snek.Lang.C33_move_command_partial` | propext, Classical.choice, Quot.sound |
| C33 | `Snek.Lang.C33_move_function_partial` | propext, Classical.choice, Quot.sound |
| C33 | `Snek.Lang.C33_line_partial` | propext, Classical.choice, Quot.sound |
| C33 | `Snek.Lang.Demo.C33_violated_mark` | propext, Quot.sound |
| C33 | `Snek.Lang.Demo.C33_violated_move` | propext, Quot.sound |
| C33 | `Snek.Lang.Demo.C33_violated_line` | propext, Quot.sound |
| C34 | `Snek.Lang.C34_literal` | propext, Classical.choice, Quot.sound |
| C34 | `Snek.Lang.C34_string_literal` | propext, Classical.choice, Quot.sound |
| C34 | `Snek.Lang.C34_prompt` | propext, Classical.choice, Quot.sound |
| C35 | `Snek.C35_ring` | propext, Classical.choice, Quot.sound |
| C35 | `Snek.C35_div` | propext, Classical.choice, Quot.sound |
| C35 | `Snek.C35_mod_partial` | propext, Classical.choice, Quot.sound |
| C35 | `Snek.C35_mod_nonneg` | propext, Classical.choice, Quot.sound |
| C35 | `Snek.C35_compare` | propext, Classical.choice, Quot.sound |
| C35 | `Snek.C35_representable` | propext, Classical.choice, Quot.sound |
| C35 | `Snek.C35_violated_mod` | propext, Classical.choice, Quot.sound |
| C36 | `Snek.C36_bitwise` | propext, Classical.choice, Quot.sound |
| C36 | `Snek.C36_shift` | propext, Classical.choice, Quot.sound |
| C36 | `Snek.C36_not_integer` | propext, Classical.choice, Quot.sound |
| C36 | `Snek.C36_violated_lnot` | propext, Classical.choice, Quot.sound |
| C37 | `Snek.Parse.C37_reads` | propext, Classical.choice, Quot.sound |
| C37 | `Snek.Parse.C37_only` | propext, Classical.choice, Quot.sound |
| C37 | `Snek.Parse.C37_unique` | propext, Classical.choice, Quot.sound |
| C37 | `Snek.Parse.C37_roundtrip` | propext, Classical.choice, Quot.sound |
| C37 | `Snek.Parse.C37_injective` | propext, Classical.choice, Quot.sound |
| C37 | `Snek.Parse.C37_violated_pow` | propext, Quot.sound |
| C38 | `Snek.Lex.C38_returns_partial` | propext, Classical.choice, Quot.sound |
| C38 | `Snek.Lex.C38_progress` | propext, Classical.choice, Quot.sound |
| C38 | `Snek.Lex.C38_pushback` | propext, Classical.choice, Quot.sound |
| C38 | `Snek.Lex.C38_violated_comment` | propext, Quot.sound |
| C39 | `Snek.Lex.C39_word` | propext, Quot.sound |
| C39 | `Snek.Lex.C39_unary_partial` | propext, Quot.sound |
| C39 | `Snek.Lex.C39_two_words` | propext, Quot.sound |
| C39 | `Snek.Lex.C39_violated` | propext, Quot.sound |
| C40 | `Snek.Lex.C40_literal` | propext, Quot.sound |
| C40 | `Snek.Lex.C40_toolong` | propext, Quot.sound |
| C40 | `Snek.Lex.C40_writable` | propext |
| C40 | `Snek.Lex.C40_roundtrip` | propext, Quot.sound |
| C40 | `Snek.Lex.C40_violated_hex` | propext, Quot.sound |
| C41 | `Snek.Lex.C41_token` | propext, Quot.sound |
| C41 | `Snek.Lex.C41_value_partial` | propext, Classical.choice, Quot.sound |
| C41 | `Snek.Lex.C41_integer_partial` | propext, Classical.choice, Quot.sound |
| C41 | `Snek.Lex.C41_violated_rounding` | propext, Quot.sound |
| C42 | `Snek.Parse.C42_blocks_partial` | propext, Classical.choice, Quot.sound |
| C42 | `Snek.Parse.C42_closed` | propext, Quot.sound |
| C42 | `Snek.Parse.C42_relative` | propext, Quot.sound |
| C42 | `Snek.Parse.C42_inconsistent` | propext |
| C42 | `Snek.Parse.C42_violated_wrap` | propext, Quot.sound |
| C43 | `Snek.Lex.C43_count` | propext, Classical.choice, Quot.sound |
| C43 | `Snek.Lex.C43_token_partial` | propext, Classical.choice, Quot.sound |
| C43 | `Snek.Lex.C43_violated_string` | propext, Quot.sound |
| C44 | `Snek.Io.C44_line_partial` | propext, Quot.sound |
| C44 | `Snek.Io.C44_lines_partial` | propext, Quot.sound |
| C44 | `Snek.Io.C44_echo` | propext, Quot.sound |
| C44 | `Snek.Io.C44_interrupt` | propext, Quot.sound |
| C44 | `Snek.Io.C44_violated_interrupt` | propext, Quot.sound |
| C44 | `Snek.Io.C44_bounds` | propext, Quot.sound |
| C44 | `Snek.Io.C44_idle` | propext |
| C45 | `Snek.Uart.C45_fifo` | propext, Classical.choice, Quot.sound |
| C45 | `Snek.Uart.C45_order` | propext, Classical.choice, Quot.sound |
| C45 | `Snek.Uart.C45_lossless` | propext, Classical.choice, Quot.sound |
| C45 | `Snek.Uart.C45_bounds` | propext, Classical.choice, Quot.sound |
| C46 | `Snek.Uart.C46_alternate` | propext, Classical.choice, Quot.sound |
| C46 | `Snek.Uart.C46_resume` | propext, Classical.choice, Quot.sound |
| C46 | `Snek.Uart.C46_stop_partial` | propext, Classical.choice, Quot.sound |
| C46 | `Snek.Uart.C46_violated_stop` | propext |
| C47 | `Snek.Eeprom.C47_boot` | propext, Quot.sound |
| C47 | `Snek.Eeprom.C47_show` | propext, Quot.sound |
| C47 | `Snek.Eeprom.C47_roundtrip` | propext, Classical.choice, Quot.sound |
| C47 | `Snek.Eeprom.C47_overlong` | propext, Quot.sound |
| C47 | `Snek.Eeprom.C47_crash` | propext, Quot.sound |
| C47 | `Snek.Eeprom.C47_write_bounds` | propext, Quot.sound |
| C47 | `Snek.Eeprom.C47_erase` | propext, Quot.sound |
| C47 | `Snek.Eeprom.C47_abort` | propext |
| C48 | `Snek.Flash.C48_memory` | propext, Classical.choice, Quot.sound |
| C48 | `Snek.Flash.C48_roundtrip` | propext, Classical.choice, Quot.sound |
| C48 | `Snek.Flash.C48_outside` | propext, Classical.choice, Quot.sound |
| C48 | `Snek.Flash.C48_violated_overrun` | propext, Classical.choice, Quot.sound |
| C48 | `Snek.Flash.C48_erase` | propext, Classical.choice, Quot.sound |
| C49 | `Snek.Random.C49_reproducible` | propext, Quot.sound |
| C49 | `Snek.Random.C49_small_reproducible` | none |
| C49 | `Snek.Random.C49_randrange_partial` | propext, Classical.choice, Quot.sound |
| C49 | `Snek.Random.C49_randrange_zero` | propext, Classical.choice, Quot.sound |
| C49 | `Snek.Random.C49_small_randrange_partial` | propext, Classical.choice, Quot.sound |
| C49 | `Snek.Random.C49_violated_small_zero` | propext, Classical.choice, Quot.sound |
| C49 | `Snek.Random.C49_violated_randrange` | propext, Quot.sound |
| C49 | `Snek.Random.C49_random_partial` | propext, Classical.choice, Quot.sound |
| C49 | `Snek.Random.C49_violated_random` | propext, Classical.choice, Quot.sound |
| C49 | `Snek.Random.C49_violated_small_random` | none |
| C49 | `Snek.Random.C49_period` | propext, Quot.sound |
| C49 | `Snek.Random.C49_small_period` | propext, Quot.sound |
| C49 | `Snek.Random.C49_violated_small_alternates` | propext, Classical.choice, Quot.sound |
| C50 | `Snek.C50_gcd_partial` | propext, Classical.choice, Quot.sound |
| C50 | `Snek.C50_one_partial` | propext, Classical.choice, Quot.sound |
| C50 | `Snek.C50_violated_coprime` | propext, Classical.choice, Quot.sound |
| C50 | `Snek.C50_violated_zero` | propext, Classical.choice, Quot.sound |
| C51 | `Snek.Format.C51_format` | propext, Classical.choice, Quot.sound |
| C51 | `Snek.Format.C51_defined` | propext, Classical.choice, Quot.sound |
| C51 | `Snek.Format.C51_violated_empty` | propext, Classical.choice, Quot.sound |
| C51 | `Snek.Format.C51_arguments` | propext |
| C51 | `Snek.Format.C51_integers` | propext, Classical.choice, Quot.sound |
| C51 | `Snek.Format.C51_strings` | propext, Classical.choice, Quot.sound |
| C52 | `Snek.Store.C52_concat` | propext, Quot.sound |
| C52 | `Snek.Store.C52_times` | propext, Classical.choice, Quot.sound |
| C52 | `Snek.Store.C52_in` | propext, Quot.sound |
| C52 | `Snek.Store.C52_len` | propext |
| C52 | `Snek.Store.C52_index` | propext, Classical.choice, Quot.sound |
| C53 | `Snek.Store.C53_container` | propext, Classical.choice, Quot.sound |
| C53 | `Snek.Store.C53_string` | propext, Quot.sound |
| C53 | `Snek.Store.C53_refused` | propext, Quot.sound |
| C53 | `Snek.Store.C53_violated_numbers` | propext, Quot.sound |
| C54 | `Snek.Session.C54_ready` | propext, Quot.sound |
| C54 | `Snek.Session.C54_fresh` | propext, Quot.sound |
| C54 | `Snek.Session.C54_one_message` | propext, Quot.sound |
| C54 | `Snek.Session.C54_first_message` | none |
| C54 | `Snek.Session.C54_interrupt` | propext, Quot.sound |
| C54 | `Snek.Session.C54_session` | propext, Classical.choice, Quot.sound |
| C54 | `Snek.Session.Demo.C54_violated_lingering` | propext, Quot.sound |
| C55 | `Snek.C55_truth` | propext, Classical.choice, Quot.sound |
| C55 | `Snek.C55_none_and_zero` | propext, Classical.choice, Quot.sound |
| C55 | `Snek.C55_violated_functions` | propext |
| C56 | `Snek.C56_power` | propext, Classical.choice, Quot.sound |
| C56 | `Snek.C56_operator` | propext, Classical.choice, Quot.sound |
| C57 | `Snek.Format.C57_repr` | propext, Classical.choice, Quot.sound |
| C57 | `Snek.Format.C57_print` | propext, Classical.choice, Quot.sound |
| C57 | `Snek.Format.C57_injective` | propext, Classical.choice, Quot.sound |
| C57 | `Snek.Format.C57_violated_quotes` | propext, Classical.choice, Quot.sound |
| C58 | `Snek.Lang.C58_no_write_outside` | propext, Quot.sound |
| C58 | `Snek.Lang.C58_overflow_ends_partial` | propext, Classical.choice, Quot.sound |
| C58 | `Snek.Lang.C58_no_read_below_partial` | propext, Classical.choice, Quot.sound |
| C58 | `Snek.Lang.Demo.C58_violated` | propext, Quot.sound |
| C59 | `Snek.C59_rounded` | propext, Classical.choice, Quot.sound |
| C59 | `Snek.C59_neg` | propext, Classical.choice, Quot.sound |
| C59 | `Snek.C59_zero_sign` | propext, Classical.choice, Quot.sound |
| C60 | `Snek.Parse.C60_reads` | propext, Classical.choice, Quot.sound |
| C60 | `Snek.Parse.C60_only` | propext, Classical.choice, Quot.sound |
| C60 | `Snek.Parse.C60_unique` | propext, Classical.choice, Quot.sound |
| C60 | `Snek.Parse.C60_statement` | propext, Classical.choice, Quot.sound |
| C60 | `Snek.Parse.C60_block` | propext, Classical.choice, Quot.sound |
| C60 | `Snek.Parse.C60_nested` | propext, Classical.choice, Quot.sound |
| C60 | `Snek.Parse.C60_line` | propext, Classical.choice, Quot.sound |
| C61 | `Snek.Parse.C61_program_partial` | propext, Classical.choice, Quot.sound |
| C61 | `Snek.Parse.C61_only` | propext, Classical.choice, Quot.sound |
| C61 | `Snek.Parse.C61_unique` | propext, Classical.choice, Quot.sound |
| C62 | `Snek.Uart.C62_output` | propext, Classical.choice, Quot.sound |
| C62 | `Snek.Uart.C62_no_overwrite` | propext, Classical.choice, Quot.sound |
| C62 | `Snek.Uart.C62_accept` | propext, Classical.choice, Quot.sound |
| C62 | `Snek.Uart.C62_stopped` | propext, Quot.sound |
| C62 | `Snek.Uart.C62_progress_partial` | propext, Classical.choice, Quot.sound |
| C62 | `Snek.Uart.C62_violated_probe` | propext |
| C63 | `Snek.FlashAvr.C63_memory` | propext, Classical.choice, Quot.sound |
| C63 | `Snek.FlashAvr.C63_cut` | propext, Classical.choice, Quot.sound |
| C63 | `Snek.FlashAvr.C63_roundtrip` | propext, Classical.choice, Quot.sound |
| C63 | `Snek.FlashAvr.C63_overlong` | propext, Classical.choice, Quot.sound |
| C63 | `Snek.FlashAvr.C63_outside` | propext, Classical.choice, Quot.sound |
| C63 | `Snek.FlashAvr.C63_interrupted` | propext, Classical.choice, Quot.sound |
| C63 | `Snek.FlashAvr.C63_erase` | propext, Classical.choice, Quot.sound |
| C63 | `Snek.FlashAvr.C63_violated_erase` | propext, Quot.sound |
| C63 | `Snek.FlashAvr.C63_violated_nofuse` | propext, Quot.sound |
| C64 | `Snek.Format.C64_close` | propext, Classical.choice, Quot.sound |
| C64 | `Snek.Format.C64_zero` | propext, Classical.choice, Quot.sound |
| C64 | `Snek.Format.C64_roundtrip` | propext, Classical.choice, Quot.sound |
| C64 | `Snek.Format.C64_distinct` | propext, Classical.choice, Quot.sound |
| C64 | `Snek.Format.C64_library` | propext, Classical.choice, Quot.sound |
| C64 | `Snek.Format.C64_values` | propext, Classical.choice, Quot.sound |
| C65 | `Snek.Draw.C65_picture_partial` | propext, Classical.choice, Quot.sound |
| C65 | `Snek.Draw.C65_short_tame` | propext, Quot.sound |
| C65 | `Snek.Draw.C65_violated_astray` | propext, Quot.sound |
| C65 | `Snek.Draw.C65_violated_outside` | propext, Quot.sound |
| C66 | `Snek.Atof.C66_value` | propext, Classical.choice, Quot.sound |
| C66 | `Snek.Atof.C66_literal` | propext, Classical.choice, Quot.sound |
| C66 | `Snek.Atof.C66_violated_nearest` | propext, Quot.sound |
| C67 | `Snek.Time.C67_reading_partial` | propext, Classical.choice, Quot.sound |
| C67 | `Snek.Time.C67_order` | propext, Classical.choice, Quot.sound |
| C67 | `Snek.Time.C67_sleep_partial` | propext, Classical.choice, Quot.sound |
| C67 | `Snek.Time.C67_wakes` | propext, Classical.choice, Quot.sound |
| C67 | `Snek.Time.C67_ticks` | propext, Classical.choice, Quot.sound |
| C67 | `Snek.Time.C67_ticks_exact` | propext, Classical.choice, Quot.sound |
| C67 | `Snek.Time.C67_monotonic` | propext, Classical.choice, Quot.sound |
| C67 | `Snek.Time.C67_violated_usb` | propext, Quot.sound |
| C67 | `Snek.Time.C67_violated_long` | propext, Quot.sound |
| C67 | `Snek.Time.C67_violated_samd` | propext, Classical.choice, Quot.sound |
| C68 | `Snek.Builtin.C68_print` | propext, Classical.choice, Quot.sound |
| C68 | `Snek.Builtin.C68_print_end` | propext, Classical.choice, Quot.sound |
| C68 | `Snek.Builtin.C68_len` | propext, Classical.choice, Quot.sound |
| C68 | `Snek.Builtin.C68_ord_chr` | propext, Classical.choice, Quot.sound |
| C68 | `Snek.Builtin.C68_violated_ord` | propext, Classical.choice, Quot.sound |
| C68 | `Snek.Builtin.C68_abs` | propext, Quot.sound |
| C68 | `Snek.Builtin.C68_int` | propext, Classical.choice, Quot.sound |
| C68 | `Snek.Builtin.C68_input` | propext, Classical.choice, Quot.sound |
| C69 | `Snek.Session.C69_file_partial` | propext, Classical.choice, Quot.sound |
| C70 | `Snek.Gpio.C70_power` | propext, Classical.choice, Quot.sound |
| C70 | `Snek.Gpio.C70_power_limits` | propext, Classical.choice, Quot.sound |
| C70 | `Snek.Gpio.C70_power_mono` | propext, Classical.choice, Quot.sound |
| C70 | `Snek.Gpio.C70_level_partial` | propext, Classical.choice, Quot.sound |
| C70 | `Snek.Gpio.C70_input` | propext, Classical.choice, Quot.sound |
| C70 | `Snek.Gpio.C70_read` | propext, Classical.choice, Quot.sound |
| C70 | `Snek.Gpio.C70_pull` | propext, Classical.choice, Quot.sound |
| C70 | `Snek.Gpio.C70_read_value` | propext, Classical.choice, Quot.sound |
| C70 | `Snek.Gpio.C70_violated_after_read` | propext, Quot.sound |
| C70 | `Snek.Gpio.C70_violated_stays_input` | propext, Quot.sound |
| C70 | `Snek.Gpio.C70_violated_pin19` | propext, Quot.sound |
| C70 | `Snek.Gpio.C70_violated_nan` | propext |
| C70 | `Snek.Gpio.C70_violated_pull` | propext, Classical.choice, Quot.sound |
| C70 | `Snek.Gpio.C70_violated_output` | propext, Quot.sound |
| C71 | `Snek.Strfromg.C71_close` | propext, Classical.choice, Quot.sound |
| C71 | `Snek.Strfromg.C71_between` | propext, Classical.choice, Quot.sound |
| C71 | `Snek.Strfromg.C71_integer` | propext, Classical.choice, Quot.sound |
| C71 | `Snek.Strfromg.C71_special` | propext, Classical.choice, Quot.sound |
| C71 | `Snek.Strfromg.C71_fits` | propext, Classical.choice, Quot.sound |
| C71 | `Snek.Strfromg.C71_violated_distinct` | propext, Quot.sound |
| C71 | `Snek.Strfromg.C71_violated_tiny` | propext, Classical.choice, Quot.sound |
| C72 | `Snek.Lang.C72_does_all` | propext, Classical.choice, Quot.sound |
| C72 | `Snek.Lang.C72_goes_on` | propext, Classical.choice, Quot.sound |
| C72 | `Snek.Lang.C72_does_only` | propext, Classical.choice, Quot.sound |
| C72 | `Snek.Lang.C72_ends_iff` | propext, Classical.choice, Quot.sound |
| C72 | `Snek.Session.C72_file` | propext, Classical.choice, Quot.sound |
| C73 | `Snek.Lang.C73_code_sound_partial` | propext, Classical.choice, Quot.sound |
| C73 | `Snek.Lang.C73_control_flow_partial` | propext, Classical.choice, Quot.sound |
| C73 | `Snek.Lang.C73_strings_partial` | propext, Classical.choice, Quot.sound |
| C73 | `Snek.Lang.Demo.C73_violated_dict` | propext, Quot.sound |
| C74 | `Snek.Machine.C74_memory_safe_partial` | propext, Classical.choice, Quot.sound |
| C74 | `Snek.Machine.C74_next_command_partial` | propext, Classical.choice, Quot.sound |
| C74 | `Snek.Machine.C74_history_partial` | propext, Classical.choice, Quot.sound |
| C74 | `Snek.Machine.Demo.C74_violated_none` | propext, Classical.choice, Quot.sound |
| C75 | `Snek.Ptr.C75_results_partial` | propext, Classical.choice, Quot.sound |
| C75 | `Snek.Ptr.C75_collectors_partial` | propext, Classical.choice, Quot.sound |
| C75 | `Snek.Ptr.C75_violated_repeat` | propext, Quot.sound |
| C75 | `Snek.Ptr.C75_violated_full` | propext, Quot.sound |
| C75 | `Snek.Ptr.C75_violated_del` | propext, Quot.sound |
| C76 | `Snek.Pda.C76_exact_or_memory_partial` | propext, Classical.choice, Quot.sound |
| C76 | `Snek.Pda.C76_exact_partial` | propext, Classical.choice, Quot.sound |
| C76 | `Snek.Pda.C76_violated_elif` | propext, Quot.sound |
| C76 | `Snek.Pda.C76_violated_elif_127` | propext, Quot.sound |
| C76 | `Snek.Pda.C76_violated_function` | propext, Quot.sound |
| C77 | `Snek.Pda.C77_stops` | propext, Classical.choice, Quot.sound |
| C77 | `Snek.Pda.C77_only_commands` | propext, Classical.choice, Quot.sound |
| C77 | `Snek.Pda.C77_success` | propext, Classical.choice, Quot.sound |
| C77 | `Snek.Pda.C77_error` | propext, Classical.choice, Quot.sound |
| C77 | `Snek.Pda.C77_memory` | propext, Quot.sound |
| C77 | `Snek.Pda.C77_decides` | propext, Classical.choice, Quot.sound |
| C78 | `Snek.Fsum.C78_exact_partial` | propext, Classical.choice, Quot.sound |
| C78 | `Snek.Fsum.C78_small_partial` | propext, Classical.choice, Quot.sound |
| C78 | `Snek.Fsum.C78_order` | propext, Classical.choice, Quot.sound |
| C78 | `Snek.Fsum.C78_infinite` | propext, Classical.choice, Quot.sound |
| C78 | `Snek.Fsum.C78_dict` | propext |
| C78 | `Snek.Fsum.C78_violated_overflow` | propext |
| C79 | `Snek.Isclose.C79_symmetric` | propext, Quot.sound |
| C79 | `Snek.Isclose.C79_nan` | propext, Quot.sound |
| C79 | `Snek.Isclose.C79_rule` | propext, Classical.choice, Quot.sound |
| C79 | `Snek.Isclose.C79_reflexive` | propext, Classical.choice, Quot.sound |
| C79 | `Snek.Isclose.C79_violated_inf` | propext, Quot.sound |
| C80 | `Snek.UsbSamd.C80_input` | propext, Quot.sound |
| C80 | `Snek.UsbSamd.C80_accepts` | propext, Quot.sound |
| C80 | `Snek.UsbSamd.C80_drains` | propext, Quot.sound |
| C80 | `Snek.UsbSamd.C80_violated_stall` | propext |
| C80 | `Snek.UsbSamd.C80_interrupt_partial` | propext, Quot.sound |
| C80 | `Snek.UsbSamd.C80_interrupt_now_partial` | propext, Quot.sound |
| C80 | `Snek.UsbSamd.C80_violated_second` | propext |
| C80 | `Snek.UsbSamd.C80_violated_full` | propext |
| C80 | `Snek.UsbSamd.C80_violated_late` | propext |
| C80 | `Snek.UsbSamd.C80_output` | propext, Quot.sound |
| C80 | `Snek.UsbSamd.C80_flush` | propext, Quot.sound |
| C80 | `Snek.UsbSamd.C80_flush_again` | propext, Quot.sound |
| C80 | `Snek.UsbSamd.C80_output_progress` | propext, Quot.sound |
| C80 | `Snek.UsbSamd.C80_text` | propext, Quot.sound |
| C80 | `Snek.UsbSamd.C80_violated_quiet` | propext |
| C81 | `Snek.Neopixel.C81_wire` | propext, Quot.sound |
| C81 | `Snek.Neopixel.C81_wires_partial` | propext, Quot.sound |
| C81 | `Snek.Neopixel.C81_shows` | propext, Quot.sound |
| C81 | `Snek.Neopixel.C81_shows_two_partial` | propext, Quot.sound |
| C81 | `Snek.Neopixel.C81_error_partial` | propext, Quot.sound |
| C81 | `Snek.Neopixel.C81_brightness` | propext, Classical.choice, Quot.sound |
| C81 | `Snek.Neopixel.C81_brightness_limits` | propext, Classical.choice, Quot.sound |
| C81 | `Snek.Neopixel.C81_violated_two` | propext, Quot.sound |
| C81 | `Snek.Neopixel.C81_violated_single` | propext, Quot.sound |
| C81 | `Snek.Neopixel.C81_violated_error` | propext, Quot.sound |
| C81 | `Snek.Neopixel.C81_violated_high` | propext, Quot.sound |
| C82 | `Snek.Pins.C82_power` | propext, Classical.choice, Quot.sound |
| C82 | `Snek.Pins.C82_power_limits` | propext, Classical.choice, Quot.sound |
| C82 | `Snek.Pins.C82_power_mono` | propext, Classical.choice, Quot.sound |
| C82 | `Snek.Pins.C82_level` | propext, Classical.choice, Quot.sound |
| C82 | `Snek.Pins.C82_stopall` | propext, Classical.choice, Quot.sound |
| C82 | `Snek.Pins.C82_motor` | propext, Classical.choice, Quot.sound |
| C82 | `Snek.Pins.C82_input` | propext, Classical.choice, Quot.sound |
| C82 | `Snek.Pins.C82_read` | propext, Classical.choice, Quot.sound |
| C82 | `Snek.Pins.C82_read_value` | propext, Classical.choice, Quot.sound |
| C82 | `Snek.Pins.C82_boards_partial` | propext, Quot.sound |
| C82 | `Snek.Pins.C82_level_boards` | propext, Classical.choice, Quot.sound |
| C82 | `Snek.Pins.C82_violated_same_pin` | propext, Quot.sound |
| C82 | `Snek.Pins.C82_violated_no_channel` | propext, Quot.sound |
| C82 | `Snek.Pins.C82_violated_motor_talkto` | propext, Quot.sound |
| C82 | `Snek.Pins.C82_violated_pin0` | propext, Quot.sound |
| C82 | `Snek.Pins.C82_violated_after_read` | propext, Quot.sound |
| C82 | `Snek.Pins.C82_violated_nan` | none |
| C83 | `Snek.AvrPins.C83_boards_partial` | propext, Quot.sound |
| C83 | `Snek.AvrPins.C83_power` | propext, Classical.choice, Quot.sound |
| C83 | `Snek.AvrPins.C83_power_limits` | propext, Classical.choice, Quot.sound |
| C83 | `Snek.AvrPins.C83_level_partial` | propext, Classical.choice, Quot.sound |
| C83 | `Snek.AvrPins.C83_input` | propext, Classical.choice, Quot.sound |
| C83 | `Snek.AvrPins.C83_read_partial` | propext, Classical.choice, Quot.sound |
| C83 | `Snek.AvrPins.C83_pull` | propext, Classical.choice, Quot.sound |
| C83 | `Snek.AvrPins.C83_read_value_partial` | propext, Classical.choice, Quot.sound |
| C83 | `Snek.AvrPins.C83_reset_partial` | propext, Quot.sound |
| C83 | `Snek.AvrPins.C83_violated_pin6` | propext, Quot.sound |
| C83 | `Snek.AvrPins.C83_violated_stopall` | propext, Quot.sound |
| C83 | `Snek.AvrPins.C83_violated_pullup` | propext |
| C83 | `Snek.AvrPins.C83_violated_a8` | propext |
| C83 | `Snek.AvrPins.C83_violated_uduino` | propext |
| C83 | `Snek.AvrPins.C83_violated_spi` | propext, Classical.choice, Quot.sound |
| C83 | `Snek.AvrPins.C83_violated_reset` | propext, Quot.sound |
| C83 | `Snek.AvrPins.C83_violated_after_read` | propext, Quot.sound |
| C83 | `Snek.AvrPins.C83_violated_nan` | propext |
| C84 | `Snek.Tone.C84_safe_partial` | propext, Classical.choice, Quot.sound |
| C84 | `Snek.Tone.C84_wave` | propext, Classical.choice, Quot.sound |
| C84 | `Snek.Tone.C84_pitch` | propext, Classical.choice, Quot.sound |
| C84 | `Snek.Tone.C84_stop` | propext, Classical.choice, Quot.sound |
| C84 | `Snek.Tone.C84_shape` | propext |
| C84 | `Snek.Tone.C84_rest` | propext, Quot.sound |
| C84 | `Snek.Tone.C84_level` | propext |
| C84 | `Snek.Tone.C84_note_328_partial` | propext, Classical.choice, Quot.sound |
| C84 | `Snek.Tone.C84_low_328` | propext, Classical.choice, Quot.sound |
| C84 | `Snek.Tone.C84_quiet_328_partial` | propext, Classical.choice, Quot.sound |
| C84 | `Snek.Tone.C84_lasts_328` | propext, Classical.choice, Quot.sound |
| C84 | `Snek.Tone.C84_note_every` | propext, Classical.choice, Quot.sound |
| C84 | `Snek.Tone.C84_quiet_every` | propext, Classical.choice, Quot.sound |
| C84 | `Snek.Tone.C84_restored_every` | propext, Quot.sound |
| C84 | `Snek.Tone.C84_violated_range` | propext |
| C84 | `Snek.Tone.C84_violated_negative` | propext, Quot.sound |
| C84 | `Snek.Tone.C84_violated_rest` | propext |
| C84 | `Snek.Tone.C84_violated_power` | propext, Quot.sound |
| C84 | `Snek.Tone.C84_violated_off` | propext, Quot.sound |
| C84 | `Snek.Tone.C84_violated_tonefor` | propext, Quot.sound |
| C84 | `Snek.Tone.C84_violated_pin6` | propext, Quot.sound |
| C84 | `Snek.Tone.C84_violated_high` | propext, Quot.sound |
| C84 | `Snek.Tone.C84_violated_on` | propext, Quot.sound |
| C84 | `Snek.Tone.C84_violated_pin9` | propext, Quot.sound |
| C85 | `Snek.Pow.C85_exp_partial` | propext, Classical.choice, Quot.sound |
| C85 | `Snek.Pow.C85_log` | propext, Classical.choice, Quot.sound |
| C85 | `Snek.Pow.C85_ipow` | propext, Classical.choice, Quot.sound |
| C85 | `Snek.Pow.C85_pow_partial` | propext, Classical.choice, Quot.sound |
| C85 | `Snek.Pow.C85_violated_large` | propext, Quot.sound |
| C85 | `Snek.Pow.C85_violated_zero` | propext, Quot.sound |
| C85 | `Snek.Pow.C85_violated_negative` | propext, Quot.sound |
| C85 | `Snek.Pow.C85_violated_odd` | propext, Quot.sound |
| C85 | `Snek.Pow.C85_violated_root` | propext, Quot.sound |
| C85 | `Snek.Pow.C85_violated_exact` | propext, Quot.sound |
| C86 | `Snek.UsbAvr.C86_input` | propext, Quot.sound |
| C86 | `Snek.UsbAvr.C86_accepts` | propext, Quot.sound |
| C86 | `Snek.UsbAvr.C86_drains` | propext, Quot.sound |
| C86 | `Snek.UsbAvr.C86_returns` | propext, Classical.choice, Quot.sound |
| C86 | `Snek.UsbAvr.C86_interrupt_partial` | propext, Classical.choice, Quot.sound |
| C86 | `Snek.UsbAvr.C86_interrupt_read` | propext, Classical.choice, Quot.sound |
| C86 | `Snek.UsbAvr.C86_violated_full` | propext |
| C86 | `Snek.UsbAvr.C86_output` | propext, Quot.sound |
| C86 | `Snek.UsbAvr.C86_flush` | propext, Quot.sound |
| C86 | `Snek.UsbAvr.C86_returned` | propext, Quot.sound |
| C86 | `Snek.UsbAvr.C86_waits` | propext, Quot.sound |
| C86 | `Snek.UsbAvr.C86_progress` | propext, Classical.choice, Quot.sound |
| C87 | `Snek.Ev3.C87_sound` | propext, Classical.choice, Quot.sound |
| C87 | `Snek.Ev3.C87_readonly` | propext, Classical.choice, Quot.sound |
| C87 | `Snek.Ev3.C87_port` | propext, Classical.choice, Quot.sound |
| C87 | `Snek.Ev3.C87_mode` | propext, Classical.choice, Quot.sound |
| C87 | `Snek.Ev3.C87_closed` | propext, Classical.choice, Quot.sound |
| C87 | `Snek.Ev3.C87_numbers` | propext, Quot.sound |
| C87 | `Snek.Ev3.C87_complete_partial` | propext, Classical.choice, Quot.sound |
| C87 | `Snek.Ev3.C87_violated_foreign` | propext, Classical.choice, Quot.sound |
| C87 | `Snek.Ev3.C87_violated_unplug` | propext, Classical.choice, Quot.sound |
| C88 | `Snek.Ev3.C88_orders_partial` | propext, Classical.choice, Quot.sound |
| C88 | `Snek.Ev3.C88_failed_partial` | propext, Classical.choice, Quot.sound |
| C88 | `Snek.Ev3.C88_read_partial` | propext, Classical.choice, Quot.sound |
| C88 | `Snek.Ev3.C88_talkto` | propext, Classical.choice, Quot.sound |
| C88 | `Snek.Ev3.C88_unchosen` | propext, Classical.choice, Quot.sound |
| C88 | `Snek.Ev3.C88_closed` | propext, Classical.choice, Quot.sound |
| C88 | `Snek.Ev3.C88_speed` | propext, Classical.choice, Quot.sound |
| C88 | `Snek.Ev3.C88_text` | propext, Classical.choice, Quot.sound |
| C88 | `Snek.Ev3.C88_complete_partial` | propext, Classical.choice, Quot.sound |
| C88 | `Snek.Ev3.C88_violated_first` | propext, Classical.choice, Quot.sound |
| C88 | `Snek.Ev3.C88_violated_absent` | propext, Classical.choice, Quot.sound |
| C89 | `Snek.Relay.C89_sessions` | propext, Classical.choice, Quot.sound |
| C89 | `Snek.Relay.C89_sleep` | propext, Classical.choice, Quot.sound |
| C89 | `Snek.Relay.C89_unreachable` | propext, Quot.sound |
| C89 | `Snek.Relay.C89_exit_partial` | propext, Classical.choice, Quot.sound |
| C89 | `Snek.Relay.C89_killed_partial` | propext, Quot.sound |
| C89 | `Snek.Relay.C89_interrupts` | propext, Classical.choice, Quot.sound |
| C89 | `Snek.Relay.C89_interrupt` | propext, Quot.sound |
| C89 | `Snek.Relay.C89_arrives` | propext, Classical.choice, Quot.sound |
| C89 | `Snek.Relay.C89_violated_typeahead` | propext |
| C89 | `Snek.Relay.C89_violated_slow` | propext |
| C89 | `Snek.Relay.C89_violated_halfclose` | propext |
| C89 | `Snek.Relay.C89_violated_client` | propext |
| C90 | `Snek.Ev3Store.C90_write_partial` | propext, Quot.sound |
| C90 | `Snek.Ev3Store.C90_crash` | propext, Quot.sound |
| C90 | `Snek.Ev3Store.C90_violated_eof` | propext, Quot.sound |
| C90 | `Snek.Ev3Store.C90_violated_binary` | propext, Quot.sound |
| C90 | `Snek.Ev3Store.C90_show_partial` | propext, Quot.sound |
| C90 | `Snek.Ev3Store.C90_erased` | propext |
| C90 | `Snek.Ev3Store.C90_violated_long` | propext, Classical.choice, Quot.sound |
| C90 | `Snek.Ev3Store.C90_violated_stack` | none |
| C91 | `Snek.Scarce.C91_stops` | propext, Classical.choice, Quot.sound |
| C91 | `Snek.Scarce.C91_enough` | propext, Classical.choice, Quot.sound |
| C91 | `Snek.Scarce.C91_reported` | propext, Classical.choice, Quot.sound |
| C91 | `Snek.Scarce.C91_executed_partial` | propext, Classical.choice, Quot.sound |
| C91 | `Snek.Scarce.C91_violated_def` | propext, Quot.sound |
| C91 | `Snek.Scarce.C91_violated_write` | propext, Quot.sound |
| C92 | `Snek.Snekde.C92_keys_partial` | propext, Classical.choice, Quot.sound |
| C92 | `Snek.Snekde.C92_up` | propext, Quot.sound |
| C92 | `Snek.Snekde.C92_down_partial` | propext, Quot.sound |
| C92 | `Snek.Snekde.C92_cursor_partial` | propext, Classical.choice, Quot.sound |
| C92 | `Snek.Snekde.C92_unwind_partial` | propext, Classical.choice, Quot.sound |
| C92 | `Snek.Snekde.C92_undo_partial` | propext, Classical.choice, Quot.sound |
| C92 | `Snek.Snekde.C92_indent_partial` | propext, Classical.choice, Quot.sound |
| C92 | `Snek.Snekde.C92_newline_partial` | propext, Classical.choice, Quot.sound |
| C92 | `Snek.Snekde.C92_page_partial` | propext, Quot.sound |
| C92 | `Snek.Snekde.C92_violated_page` | propext, Classical.choice, Quot.sound |
| C92 | `Snek.Snekde.C92_violated_indent` | propext, Classical.choice, Quot.sound |
| C92 | `Snek.Snekde.C92_violated_last` | propext, Classical.choice, Quot.sound |
| C92 | `Snek.Snekde.C92_violated_copy` | propext |
| C92 | `Snek.Snekde.C92_violated_shared` | propext, Classical.choice, Quot.sound |
| C92 | `Snek.Snekde.C92_violated_load` | propext, Classical.choice, Quot.sound |
| C93 | `Snek.Link.C93_order` | propext, Quot.sound |
| C93 | `Snek.Link.C93_kept_partial` | propext, Classical.choice, Quot.sound |
| C93 | `Snek.Link.C93_delivered_partial` | propext, Classical.choice, Quot.sound |
| C93 | `Snek.Link.C93_ends` | propext, Classical.choice, Quot.sound |
| C93 | `Snek.Link.C93_violated_question` | propext, Classical.choice, Quot.sound |
| C93 | `Snek.Link.C93_violated_busy` | propext, Classical.choice, Quot.sound |
| C94 | `Snek.PutGet.C94_put_partial` | propext, Classical.choice, Quot.sound |
| C94 | `Snek.PutGet.C94_get` | propext, Quot.sound |
| C94 | `Snek.PutGet.C94_roundtrip_partial` | propext, Classical.choice, Quot.sound |
| C94 | `Snek.PutGet.C94_violated_tab` | propext, Classical.choice, Quot.sound |
| C94 | `Snek.PutGet.C94_violated_accent` | propext, Quot.sound |
| C94 | `Snek.PutGet.C94_violated_blank` | propext, Classical.choice, Quot.sound |
| C95 | `Snek.I2c.C95_put_partial` | propext, Classical.choice, Quot.sound |
| C95 | `Snek.I2c.C95_get_partial` | propext, Quot.sound |
| C95 | `Snek.I2c.C95_accel_partial` | propext, Classical.choice, Quot.sound |
| C95 | `Snek.I2c.C95_violated_odd` | propext, Quot.sound |
| C95 | `Snek.I2c.C95_violated_missing` | propext, Quot.sound |
| C95 | `Snek.I2c.C95_violated_range` | propext, Quot.sound |
| C95 | `Snek.I2c.C95_violated_torn` | propext, Quot.sound |
| C96 | `Snek.UsbControl.C96_answers_partial` | propext, Classical.choice, Quot.sound |
| C96 | `Snek.UsbControl.C96_descriptor_partial` | propext, Classical.choice, Quot.sound |
| C96 | `Snek.UsbControl.C96_serial` | propext, Classical.choice, Quot.sound |
| C96 | `Snek.UsbControl.C96_coding_partial` | propext, Classical.choice, Quot.sound |
| C96 | `Snek.UsbControl.C96_progress_partial` | propext, Classical.choice, Quot.sound |
| C96 | `Snek.UsbControl.C96_ends` | propext, Quot.sound |
| C96 | `Snek.UsbControl.C96_address_partial` | propext, Classical.choice, Quot.sound |
| C96 | `Snek.UsbControl.C96_violated_configuration` | propext, Classical.choice, Quot.sound |
| C96 | `Snek.UsbControl.C96_violated_exact` | propext, Classical.choice, Quot.sound |
| C96 | `Snek.UsbControl.C96_violated_address` | propext, Classical.choice, Quot.sound |
| C97 | `Snek.Baro.C97_baro_zero` | propext, Classical.choice, Quot.sound |
| C97 | `Snek.Baro.C97_baro_sign` | propext, Classical.choice, Quot.sound |
| C97 | `Snek.Baro.C97_baro_partial` | propext, Classical.choice, Quot.sound |
| C97 | `Snek.Baro.C97_violated_sign` | propext, Quot.sound |
| C98 | `Snek.Machine.C98_compare_partial` | propext, Classical.choice, Quot.sound |
| C98 | `Snek.Machine.C98_nan` | propext, Classical.choice, Quot.sound |
| C98 | `Snek.Machine.C98_is` | propext, Classical.choice, Quot.sound |
| C98 | `Snek.Machine.C98_in` | propext, Classical.choice, Quot.sound |
| C98 | `Snek.Machine.C98_in_string` | propext, Classical.choice, Quot.sound |
| C98 | `Snek.Machine.C98_truth` | propext, Classical.choice, Quot.sound |
| C98 | `Snek.Machine.C98_negate` | propext, Classical.choice, Quot.sound |
| C98 | `Snek.Machine.C98_complement_partial` | propext, Classical.choice, Quot.sound |
| C98 | `Snek.Machine.C98_unary_refused` | propext, Classical.choice, Quot.sound |
| C98 | `Snek.Machine.C98_display` | propext, Classical.choice, Quot.sound |
| C98 | `Snek.Machine.C98_concat` | propext, Classical.choice, Quot.sound |
| C98 | `Snek.Machine.C98_append` | propext, Classical.choice, Quot.sound |
| C98 | `Snek.Machine.C98_arithmetic` | propext, Classical.choice, Quot.sound |
| C98 | `Snek.Machine.C98_index` | propext, Classical.choice, Quot.sound |
| C98 | `Snek.Machine.C98_store` | propext, Classical.choice, Quot.sound |
| C98 | `Snek.Machine.C98_delete` | propext, Classical.choice, Quot.sound |
| C98 | `Snek.Machine.C98_names` | propext, Classical.choice, Quot.sound |
| C98 | `Snek.Machine.C98_print` | propext, Classical.choice, Quot.sound |
| C98 | `Snek.Machine.C98_str` | propext, Classical.choice, Quot.sound |
| C98 | `Snek.Machine.C98_len` | propext, Classical.choice, Quot.sound |
| C98 | `Snek.Machine.C98_chr` | propext, Classical.choice, Quot.sound |
| C98 | `Snek.Machine.C98_ord_partial` | propext, Classical.choice, Quot.sound |
| C98 | `Snek.Machine.C98_abs` | propext, Classical.choice, Quot.sound |
| C98 | `Snek.Machine.C98_int` | propext, Classical.choice, Quot.sound |
| C98 | `Snek.Machine.C98_arity` | propext, Classical.choice, Quot.sound |
| C98 | `Snek.Machine.C98_device_arity` | propext, Classical.choice, Quot.sound |
| C98 | `Snek.Machine.C98_violated_outside` | propext, Classical.choice, Quot.sound |
| C98 | `Snek.Machine.C98_for_list` | propext, Classical.choice, Quot.sound |
| C98 | `Snek.Machine.C98_for_dict` | propext, Classical.choice, Quot.sound |
| C98 | `Snek.Machine.C98_for_string` | propext, Classical.choice, Quot.sound |
| C98 | `Snek.Machine.C98_dict_display_partial` | propext, Classical.choice, Quot.sound |
| C98 | `Snek.Machine.C98_dict_get_partial` | propext, Classical.choice, Quot.sound |
| C98 | `Snek.Machine.C98_dict_store_partial` | propext, Classical.choice, Quot.sound |
| C98 | `Snek.Machine.C98_dict_delete_partial` | propext, Classical.choice, Quot.sound |
| C98 | `Snek.Machine.C98_divide_partial` | propext, Classical.choice, Quot.sound |
| C98 | `Snek.Machine.C98_floor` | propext, Classical.choice, Quot.sound |
| C98 | `Snek.Machine.C98_bits` | propext, Classical.choice, Quot.sound |
| C98 | `Snek.Machine.C98_shift` | propext, Classical.choice, Quot.sound |
| C98 | `Snek.Machine.C98_power` | propext, Classical.choice, Quot.sound |
| C98 | `Snek.Machine.C98_bits_refused` | propext, Classical.choice, Quot.sound |
| C98 | `Snek.Machine.C98_kinds_refused` | propext, Classical.choice, Quot.sound |
| C98 | `Snek.Machine.C98_string_concat` | propext, Classical.choice, Quot.sound |
| C98 | `Snek.Machine.C98_string_repeat` | propext, Classical.choice, Quot.sound |
| C98 | `Snek.Machine.C98_repeat` | propext, Classical.choice, Quot.sound |
| C98 | `Snek.Machine.C98_format` | propext, Classical.choice, Quot.sound |
| C98 | `Snek.Machine.C98_slice_partial` | propext, Classical.choice, Quot.sound |
| C98 | `Snek.Machine.C98_string_slice_partial` | propext, Classical.choice, Quot.sound |
| C98 | `Snek.Machine.C98_augment` | propext, Classical.choice, Quot.sound |
| C98 | `Snek.Machine.C98_augment_any` | propext, Classical.choice, Quot.sound |
| C98 | `Snek.Machine.C98_augment_dict` | propext, Classical.choice, Quot.sound |
| C99 | `Snek.Posix.C99_typed` | propext |
| C99 | `Snek.Posix.C99_prompts` | propext, Quot.sound |
| C99 | `Snek.Posix.C99_session_end` | propext, Quot.sound |
| C99 | `Snek.Posix.C99_file` | propext |
| C99 | `Snek.Posix.C99_status` | propext, Quot.sound |
| C99 | `Snek.Posix.C99_help` | propext |
| C99 | `Snek.Posix.C99_clean_line` | propext, Classical.choice, Quot.sound |
| C99 | `Snek.Posix.C99_clean_end` | propext, Classical.choice, Quot.sound |
| C99 | `Snek.Posix.C99_violated_interrupt_at_prompt` | none |
| C99 | `Snek.Posix.C99_violated_race` | none |
| C99 | `Snek.Posix.C99_violated_fgets` | propext |
| C99 | `Snek.Posix.C99_violated_leftover` | propext, Quot.sound |
| C99 | `Snek.Posix.C99_violated_option` | propext |
| C100 | `Snek.Uf2.C100_image` | propext, Classical.choice, Quot.sound |
| C100 | `Snek.Uf2.C100_numbered` | propext, Quot.sound |
| C100 | `Snek.Uf2.C100_defined` | propext, Quot.sound |
| C100 | `Snek.Uf2.C100_back` | propext, Quot.sound |
| C100 | `Snek.Uf2.C100_hex` | propext, Classical.choice, Quot.sound |
| C100 | `Snek.Uf2.C100_convert` | propext, Classical.choice, Quot.sound |
| C100 | `Snek.Uf2.C100_violated_order` | propext, Quot.sound |
| C100 | `Snek.Uf2.C100_violated_skip` | propext, Quot.sound |
| C101 | `Snek.C101_factorial` | propext, Classical.choice, Quot.sound |
| C101 | `Snek.C101_limit` | propext, Quot.sound |
| C101 | `Snek.C101_other` | propext, Classical.choice, Quot.sound |
| C101 | `Snek.C101_violated_domain` | none |
| C102 | `Snek.Metal.C102_output` | propext, Classical.choice, Quot.sound |
| C102 | `Snek.Metal.C102_device` | propext, Classical.choice, Quot.sound |
| C102 | `Snek.Metal.C102_accept` | propext, Classical.choice, Quot.sound |
| C102 | `Snek.Metal.C102_progress` | propext, Classical.choice, Quot.sound |
| C102 | `Snek.Metal.C102_resume` | propext, Classical.choice, Quot.sound |
| C102 | `Snek.Metal.C102_input_partial` | propext, Classical.choice, Quot.sound |
| C102 | `Snek.Metal.C102_order` | propext, Classical.choice, Quot.sound |
| C102 | `Snek.Metal.C102_violated_xoff` | propext |
| C102 | `Snek.Metal.C102_violated_wakeup` | propext |
| C103 | `Snek.MetalTime.C103_clock` | propext |
| C103 | `Snek.MetalTime.C103_expire_partial` | propext, Classical.choice, Quot.sound |
| C103 | `Snek.MetalTime.C103_waits` | propext, Quot.sound |
| C103 | `Snek.MetalTime.C103_monotonic` | propext, Classical.choice, Quot.sound |
| C103 | `Snek.MetalTime.C103_violated_uptime` | propext |
| C104 | `Snek.MetalGpio.C104_pins_partial` | propext, Classical.choice, Quot.sound |
| C104 | `Snek.MetalGpio.C104_direction` | propext, Quot.sound |
| C104 | `Snek.MetalGpio.C104_refused` | propext, Classical.choice, Quot.sound |
| C104 | `Snek.MetalGpio.C104_violated_stopall` | propext |
| C104 | `Snek.MetalGpio.C104_violated_alias` | propext |
| C104 | `Snek.MetalGpio.C104_violated_setpower` | propext |
| C104 | `Snek.MetalGpio.C104_violated_direction` | propext |
| C105 | `Snek.Narrow.C105_level_partial` | propext, Classical.choice, Quot.sound |
| C105 | `Snek.Narrow.C105_pull_partial` | propext, Classical.choice, Quot.sound |
| C105 | `Snek.Narrow.C105_read` | propext, Classical.choice, Quot.sound |
| C105 | `Snek.Narrow.C105_source_partial` | propext, Quot.sound |
| C105 | `Snek.Narrow.C105_dim_partial` | propext, Quot.sound |
| C105 | `Snek.Narrow.C105_violated_dim` | propext, Quot.sound |
| C105 | `Snek.Narrow.C105_full` | propext, Classical.choice, Quot.sound |
| C105 | `Snek.Narrow.C105_violated_pull15` | propext, Quot.sound |
| C105 | `Snek.Narrow.C105_violated_pull16` | propext, Classical.choice, Quot.sound |
| C105 | `Snek.Narrow.C105_violated_read` | propext, Quot.sound |
| C105 | `Snek.Narrow.C105_violated_after_read` | propext, Quot.sound |
