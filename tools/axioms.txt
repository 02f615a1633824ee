'Verif.C01_xref_points_at_objects' depends on axioms: [propext, Classical.choice, Quot.sound]
'Verif.C01_saved' depends on axioms: [propext, Classical.choice, Quot.sound]
'Verif.C02_xref_table_well_formed' depends on axioms: [propext, Classical.choice, Quot.sound]
'Verif.C02_saved' depends on axioms: [propext, Classical.choice, Quot.sound]
'Verif.C03_trailer_agrees' depends on axioms: [propext, Classical.choice, Quot.sound]
'Verif.C03_saved' depends on axioms: [propext, Classical.choice, Quot.sound]
'Verif.C04_save_open' depends on axioms: [propext, Classical.choice, Quot.sound]
'Verif.C04_saved' depends on axioms: [propext, Classical.choice, Quot.sound]
'Verif.C04_entries' depends on axioms: [propext, Classical.choice, Quot.sound]
'Verif.C05_remove_page_partial' depends on axioms: [propext, Classical.choice, Quot.sound]
'Verif.C06_duplicate_page_partial' depends on axioms: [propext, Classical.choice, Quot.sound]
'Verif.C06_duplicate_succeeds_partial' depends on axioms: [propext, Classical.choice, Quot.sound]
'Verif.C07_refuted_keeps_next_page' depends on axioms: [propext, Classical.choice, Quot.sound]
'Verif.C07_refuted_last_page_panics' depends on axioms: [propext, Classical.choice, Quot.sound]
'Verif.C07_one_page_left_partial' depends on axioms: [propext, Classical.choice, Quot.sound]
'Verif.C08_too_large_rejected_partial' depends on axioms: [propext, Classical.choice, Quot.sound]
'Verif.C08_refuted_not_positive' depends on axioms: [propext, Classical.choice, Quot.sound]
'Verif.C08_refuted_zero_accepted' depends on axioms: [propext, Classical.choice, Quot.sound]
'Verif.C08_refuted_position' depends on axioms: [propext, Classical.choice, Quot.sound]
'Verif.C09_history_is_list_editing_partial' depends on axioms: [propext, Classical.choice, Quot.sound]
'Verif.C10_frame_partial' depends on axioms: [propext, Classical.choice, Quot.sound]
'Verif.C100_line_partial' depends on axioms: [propext, Classical.choice, Quot.sound]
'Verif.C100_refuted_right' depends on axioms: [propext, Classical.choice, Quot.sound]
'Verif.C100_refuted_bottom' depends on axioms: [propext, Classical.choice, Quot.sound]
'Verif.C100_refuted_zero' depends on axioms: [propext, Classical.choice, Quot.sound]
'Verif.C100_refuted_go' depends on axioms: [propext, Classical.choice, Quot.sound]
'Verif.C100_refuted' depends on axioms: [propext, Classical.choice, Quot.sound]
'Verif.C11_copy_is_independent_partial' depends on axioms: [propext, Classical.choice, Quot.sound]
'Verif.C12_fresh_numbers' depends on axioms: [propext, Classical.choice, Quot.sound]
'Verif.C13_rewrite_lossless_partial' depends on axioms: [propext, Classical.choice, Quot.sound]
'Verif.C13_refuted_high_bytes' depends on axioms: [propext, Quot.sound]
'Verif.C13_refuted_lone_angle' depends on axioms: [propext, Quot.sound]
'Verif.C14_refs_round_trip_partial' depends on axioms: [propext, Classical.choice, Quot.sound]
'Verif.C14_written_array_partial' depends on axioms: [propext, Classical.choice, Quot.sound]
'Verif.C14_refuted_empty_array' depends on axioms: [propext]
'Verif.C15_contents_partial' depends on axioms: [propext, Classical.choice, Quot.sound]
'Verif.C15_build' depends on axioms: [propext, Classical.choice, Quot.sound]
'Verif.C15_insert' depends on axioms: [propext, Classical.choice, Quot.sound]
'Verif.C15_insert_all' depends on axioms: [propext, Classical.choice, Quot.sound]
'Verif.C15_insertImg' depends on axioms: [propext, Classical.choice, Quot.sound]
'Verif.C15_saved_partial' depends on axioms: [propext, Classical.choice, Quot.sound]
'Verif.C15_refuted_untouched' depends on axioms: [propext, Classical.choice, Quot.sound]
'Verif.C15_refuted_all' depends on axioms: [propext, Classical.choice, Quot.sound]
'Verif.C15_refuted_array' depends on axioms: [propext, Classical.choice, Quot.sound]
'Verif.C16_true_length' depends on axioms: [propext, Classical.choice, Quot.sound]
'Verif.C16_read_back_partial' depends on axioms: [propext, Classical.choice, Quot.sound]
'Verif.C16_refuted_leading_space' depends on axioms: [propext, Classical.choice, Quot.sound]
'Verif.C16_refuted_reopen' depends on axioms: [propext, Classical.choice, Quot.sound]
'Verif.C17_refuted_deep' depends on axioms: [propext, Classical.choice, Quot.sound]
'Verif.C17_fresh_partial' depends on axioms: [propext, Classical.choice, Quot.sound]
'Verif.C17_saved_partial' depends on axioms: [propext, Classical.choice, Quot.sound]
'Verif.C18_refuted_all' depends on axioms: [propext, Classical.choice, Quot.sound]
'Verif.C18_refuted' depends on axioms: [propext, Classical.choice, Quot.sound]
'Verif.C18_kept_partial' depends on axioms: [propext, Classical.choice, Quot.sound]
'Verif.C18_saved_partial' depends on axioms: [propext, Classical.choice, Quot.sound]
'Verif.C19_refuted_reference' depends on axioms: [propext, Classical.choice, Quot.sound]
'Verif.C19_refuted_name' depends on axioms: [propext, Classical.choice, Quot.sound]
'Verif.C19_saved_partial' depends on axioms: [propext, Classical.choice, Quot.sound]
'Verif.C20_refuted_order' depends on axioms: [propext, Classical.choice, Quot.sound]
'Verif.C20_refuted_page' depends on axioms: [propext, Classical.choice, Quot.sound]
'Verif.C20_first_partial' depends on axioms: [propext, Classical.choice, Quot.sound]
'Verif.C20_more_partial' depends on axioms: [propext, Classical.choice, Quot.sound]
'Verif.C21_cache' depends on axioms: [propext, Classical.choice, Quot.sound]
'Verif.C21_opened' depends on axioms: [propext, Classical.choice, Quot.sound]
'Verif.C22_refuted_all' depends on axioms: [propext, Classical.choice, Quot.sound]
'Verif.C22_refuted' depends on axioms: [propext, Classical.choice, Quot.sound]
'Verif.C23_wrap' depends on axioms: [propext, Classical.choice, Quot.sound]
'Verif.C23_call' depends on axioms: [propext, Classical.choice, Quot.sound]
'Verif.C24_breaker_lossless_partial' depends on axioms: [propext, Classical.choice, Quot.sound]
'Verif.C24_refuted_all' depends on axioms: [propext, Classical.choice, Quot.sound]
'Verif.C24_refuted_invalid_utf8' depends on axioms: [propext]
'Verif.C25_width_is_sum' depends on axioms: [propext, Classical.choice, Quot.sound]
'Verif.C25_width_additive' depends on axioms: [propext, Classical.choice, Quot.sound]
'Verif.C25_drawn_width' depends on axioms: [propext, Classical.choice, Quot.sound]
'Verif.C25_kerned' depends on axioms: [propext, Classical.choice, Quot.sound]
'Verif.C25_call' depends on axioms: [propext, Classical.choice, Quot.sound]
'Verif.C26_drawn_glyphs' depends on axioms: [propext, Classical.choice, Quot.sound]
'Verif.C27_to_unicode_partial' depends on axioms: [propext, Classical.choice, Quot.sound]
'Verif.C27_refuted_all' depends on axioms: [propext, Classical.choice, Quot.sound]
'Verif.C27_refuted_shared_glyph' depends on axioms: [propext, Classical.choice, Quot.sound]
'Verif.C27_refuted_supplementary' depends on axioms: [propext, Classical.choice, Quot.sound]
'Verif.C28_made' depends on axioms: [propext, Classical.choice, Quot.sound]
'Verif.C28_subset_partial' depends on axioms: [propext, Classical.choice, Quot.sound]
'Verif.C28_shared_partial' depends on axioms: [propext, Classical.choice, Quot.sound]
'Verif.C28_refuted_shared_glyph' depends on axioms: [propext, Quot.sound]
'Verif.C28_refuted_all' depends on axioms: [propext, Classical.choice, Quot.sound]
'Verif.C29_parts_partial' depends on axioms: [propext, Classical.choice, Quot.sound]
'Verif.C29_refuted_nested' depends on axioms: [propext, Quot.sound]
'Verif.C29_refuted_all' depends on axioms: [propext, Classical.choice, Quot.sound]
'Verif.C30_format4' depends on axioms: [propext, Classical.choice, Quot.sound]
'Verif.C30_format12_partial' depends on axioms: [propext, Classical.choice, Quot.sound]
'Verif.C30_refuted_last_of_group' depends on axioms: [propext, Quot.sound]
'Verif.C31_width_array' depends on axioms: [propext, Classical.choice, Quot.sound]
'Verif.C32_table_directory' depends on axioms: [propext, Classical.choice, Quot.sound]
'Verif.C33_stream_decrypts' depends on axioms: [propext, Quot.sound]
'Verif.C33_no_stream_partial' depends on axioms: [propext, Quot.sound]
'Verif.C33_refuted_all' depends on axioms: [propext, Classical.choice, Quot.sound]
'Verif.C33_refuted_word_stream' depends on axioms: [propext, Quot.sound]
'Verif.C33_rc4_vectors' depends on axioms: [propext, Classical.choice, Quot.sound]
'Verif.C34_length_kept_partial' depends on axioms: [propext, Quot.sound]
'Verif.C34_refuted_all' depends on axioms: [propext, Quot.sound]
'Verif.C34_refuted_line_end' depends on axioms: [propext, Quot.sound]
'Verif.C35_password_entries_partial' depends on axioms: [propext, Quot.sound]
'Verif.C35_low_byte' depends on axioms: [propext, Quot.sound]
'Verif.C35_refuted_all' depends on axioms: [propext, Quot.sound]
'Verif.C35_refuted_high_bits' depends on axioms: [propext, Quot.sound]
'Verif.C36_escape_round_trip' depends on axioms: [propext, Classical.choice, Quot.sound]
'Verif.C36_dictionary' depends on axioms: [propext, Classical.choice, Quot.sound]
'Verif.C37_unit_conversion' depends on axioms: [propext, Classical.choice, Quot.sound]
'Verif.C38_after_open_partial' depends on axioms: [propext, Classical.choice, Quot.sound]
'Verif.C38_refuted' depends on axioms: [propext, Classical.choice, Quot.sound]
'Verif.C38_refuted_all' depends on axioms: [propext, Classical.choice, Quot.sound]
'Verif.C39_unknown_partial' depends on axioms: [propext, Classical.choice, Quot.sound]
'Verif.C39_refuted_all' depends on axioms: [propext, Classical.choice, Quot.sound]
'Verif.C39_refuted' depends on axioms: [propext, Classical.choice, Quot.sound]
'Verif.C40_setFont' depends on axioms: [propext]
'Verif.C40_textrise' depends on axioms: [propext]
'Verif.C40_kern' depends on axioms: [propext]
'Verif.C40_insert' depends on axioms: [propext, Classical.choice, Quot.sound]
'Verif.C40_addFont' depends on axioms: [propext, Classical.choice, Quot.sound]
'Verif.C40_refuted_measure' depends on axioms: [propext, Classical.choice, Quot.sound]
'Verif.C40_refuted_measure_all' depends on axioms: [propext, Classical.choice, Quot.sound]
'Verif.C40_refuted_wrap' depends on axioms: [propext, Classical.choice, Quot.sound]
'Verif.C41_small_numbers_partial' depends on axioms: [propext, Quot.sound]
'Verif.C41_refuted_large_numbers' depends on axioms: [propext, Quot.sound]
'Verif.C42_rgb_planes_partial' depends on axioms: [propext, Quot.sound]
'Verif.C42_refuted_gray' depends on axioms: [propext, Quot.sound]
'Verif.C42_refuted_gray_same_object' depends on axioms: [propext]
'Verif.C43_colour_set_partial' depends on axioms: [propext, Classical.choice, Quot.sound]
'Verif.C43_refuted_all' depends on axioms: [propext, Classical.choice, Quot.sound]
'Verif.C43_refuted_sum' depends on axioms: [propext, Classical.choice, Quot.sound]
'Verif.C44_refuted_fails' depends on axioms: [propext, Classical.choice, Quot.sound]
'Verif.C44_refuted_same' depends on axioms: [propext, Classical.choice, Quot.sound]
'Verif.C44_refuted_kept' depends on axioms: [propext, Classical.choice, Quot.sound]
'Verif.C82_open' depends on axioms: [propext, Classical.choice, Quot.sound]
'Verif.C45_new' depends on axioms: [propext, Classical.choice, Quot.sound]
'Verif.C45_unknown' depends on axioms: [propext, Classical.choice, Quot.sound]
'Verif.C45_text' depends on axioms: [propext, Classical.choice, Quot.sound]
'Verif.C45_img' depends on axioms: [propext, Classical.choice, Quot.sound]
'Verif.C46_refuted_all' depends on axioms: [propext, Classical.choice, Quot.sound]
'Verif.C46_refuted_inherited' depends on axioms: [propext, Classical.choice, Quot.sound]
'Verif.C46_refuted_cycle' depends on axioms: [propext, Classical.choice, Quot.sound]
'Verif.C46_refuted_kids' depends on axioms: [propext, Classical.choice, Quot.sound]
'Verif.C47_pages_in_document_order' depends on axioms: [propext, Classical.choice, Quot.sound]
'Verif.C48_layout_partial' depends on axioms: [propext, Classical.choice, Quot.sound]
'Verif.C48_refuted' depends on axioms: [propext, Quot.sound]
'Verif.C49_refuted' depends on axioms: [propext, Classical.choice, Quot.sound]
'Verif.C49_refuted_all' depends on axioms: [propext, Classical.choice, Quot.sound]
'Verif.C49_unshared_partial' depends on axioms: [propext, Classical.choice, Quot.sound]
'Verif.C50_style_letters' depends on axioms: [propext, Classical.choice, Quot.sound]
'Verif.C51_fonts_seen_partial' depends on axioms: [propext, Classical.choice, Quot.sound]
'Verif.C51_saved_partial' depends on axioms: [propext, Classical.choice, Quot.sound]
'Verif.C52_read_written' depends on axioms: [propext, Quot.sound]
'Verif.C52_written_read' depends on axioms: [propext, Quot.sound]
'Verif.C52_write_frame' depends on axioms: [propext, Quot.sound]
'Verif.C53_refuted_palette_lost' depends on axioms: [propext, Quot.sound]
'Verif.C54_horizontal' depends on axioms: [propext, Classical.choice, Quot.sound]
'Verif.C54_vertical' depends on axioms: [propext, Classical.choice, Quot.sound]
'Verif.C54_written' depends on axioms: [propext, Classical.choice, Quot.sound]
'Verif.C55_refuted_all' depends on axioms: [propext, Classical.choice, Quot.sound]
'Verif.C55_refuted_plain_string' depends on axioms: [propext, Quot.sound]
'Verif.C56_reading_ends_partial' depends on axioms: [propext, Classical.choice, Quot.sound]
'Verif.C56_refuted_chunk_size' depends on axioms: [propext, Quot.sound]
'Verif.C57_data_kept_partial' depends on axioms: [propext, Quot.sound]
'Verif.C57_refuted_all' depends on axioms: [propext, Quot.sound]
'Verif.C57_refuted_empty_chunk' depends on axioms: [propext]
'Verif.C58_refuted_black' depends on axioms: [propext, Classical.choice, Quot.sound]
'Verif.C58_refuted_all' depends on axioms: [propext, Classical.choice, Quot.sound]
'Verif.C58_default_partial' depends on axioms: [propext, Classical.choice, Quot.sound]
'Verif.C59_numbers_accurate' depends on axioms: [propext, Classical.choice, Quot.sound]
'Verif.C60_borders' depends on axioms: [propext, Classical.choice, Quot.sound]
'Verif.C60_drawn' depends on axioms: [propext, Classical.choice, Quot.sound]
'Verif.C61_one_of_them' depends on axioms: [propext, Classical.choice, Quot.sound]
'Verif.C61_last_annotated_partial' depends on axioms: [propext, Classical.choice, Quot.sound]
'Verif.C61_refuted_first' depends on axioms: [propext, Classical.choice, Quot.sound]
'Verif.C61_refuted_annotations' depends on axioms: [propext, Classical.choice, Quot.sound]
'Verif.C62_refuted_all' depends on axioms: [propext, Classical.choice, Quot.sound]
'Verif.C62_refuted' depends on axioms: [propext, Classical.choice, Quot.sound]
'Verif.C63_width_is_advance' depends on axioms: [propext, Classical.choice, Quot.sound]
'Verif.C64_refuted' depends on axioms: [propext, Classical.choice, Quot.sound]
'Verif.C64_fonts_step_partial' depends on axioms: [propext, Classical.choice, Quot.sound]
'Verif.C64_saved_partial' depends on axioms: [propext, Classical.choice, Quot.sound]
'Verif.C65_pages_kept_partial' depends on axioms: [propext, Classical.choice, Quot.sound]
'Verif.C66_others_kept_partial' depends on axioms: [propext, Classical.choice, Quot.sound]
'Verif.C67_refuted_all' depends on axioms: [propext, Classical.choice, Quot.sound]
'Verif.C67_refuted_cut' depends on axioms: [propext, Classical.choice, Quot.sound]
'Verif.C67_refuted_streams_matter' depends on axioms: [propext, Classical.choice, Quot.sound]
'Verif.C68_protection' depends on axioms: [propext, Classical.choice, Quot.sound]
'Verif.C68_saved' depends on axioms: [propext, Classical.choice, Quot.sound]
'Verif.C68_entries' depends on axioms: [propext, Quot.sound]
'Verif.C68_named' depends on axioms: [propext, Quot.sound]
'Verif.C68_contents' depends on axioms: [propext, Quot.sound]
'Verif.C69_refuted_all' depends on axioms: [propext, Classical.choice, Quot.sound]
'Verif.C69_refuted_twice' depends on axioms: [propext, Classical.choice, Quot.sound]
'Verif.C69_refuted_clear' depends on axioms: [propext, Quot.sound]
'Verif.C70_page_partial' depends on axioms: [propext, Classical.choice, Quot.sound]
'Verif.C70_text' depends on axioms: [propext, Classical.choice, Quot.sound]
'Verif.C70_image' depends on axioms: [propext, Classical.choice, Quot.sound]
'Verif.C70_style' depends on axioms: [propext, Classical.choice, Quot.sound]
'Verif.C15_insert' depends on axioms: [propext, Classical.choice, Quot.sound]
'Verif.C15_insertImg' depends on axioms: [propext, Classical.choice, Quot.sound]
'Verif.C71_refuted_all' depends on axioms: [propext, Classical.choice, Quot.sound]
'Verif.C71_refuted' depends on axioms: [propext, Classical.choice, Quot.sound]
'Verif.C72_refuted_all' depends on axioms: [propext, Classical.choice, Quot.sound]
'Verif.C72_refuted_second_page' depends on axioms: [propext, Classical.choice, Quot.sound]
'Verif.C72_first_page_partial' depends on axioms: [propext, Classical.choice, Quot.sound]
'Verif.C73_refuted_all' depends on axioms: [propext, Classical.choice, Quot.sound]
'Verif.C73_refuted_rise' depends on axioms: [propext, Classical.choice, Quot.sound]
'Verif.C73_rise_partial' depends on axioms: [propext, Classical.choice, Quot.sound]
'Verif.C82_call' depends on axioms: [propext, Classical.choice, Quot.sound]
'Verif.C74_alpha_partial' depends on axioms: [propext, Classical.choice, Quot.sound]
'Verif.C74_plain_partial' depends on axioms: [propext, Classical.choice, Quot.sound]
'Verif.C74_jpeg' depends on axioms: [propext, Classical.choice, Quot.sound]
'Verif.C74_insertImg' depends on axioms: [propext, Classical.choice, Quot.sound]
'Verif.C74_saved_partial' depends on axioms: [propext, Classical.choice, Quot.sound]
'Verif.C74_refuted_format' depends on axioms: [propext]
'Verif.C75_saved_partial' depends on axioms: [propext, Classical.choice, Quot.sound]
'Verif.C75_run_partial' depends on axioms: [propext, Classical.choice, Quot.sound]
'Verif.C75_refuted_name' depends on axioms: [propext, Classical.choice, Quot.sound]
'Verif.C75_refuted_name_all' depends on axioms: [propext, Classical.choice, Quot.sound]
'Verif.C75_refuted_twice' depends on axioms: [propext, Classical.choice, Quot.sound]
'Verif.C76_saved_partial' depends on axioms: [propext, Classical.choice, Quot.sound]
'Verif.C76_protected_partial' depends on axioms: [propext, Classical.choice, Quot.sound]
'Verif.C76_refuted' depends on axioms: [propext, Classical.choice, Quot.sound]
'Verif.C77_read' depends on axioms: [propext, Classical.choice, Quot.sound]
'Verif.C77_accepted' depends on axioms: [propext, Classical.choice, Quot.sound]
'Verif.C77_glyph' depends on axioms: [propext, Classical.choice, Quot.sound]
'Verif.C77_glyph12_partial' depends on axioms: [propext, Classical.choice, Quot.sound]
'Verif.C77_outline' depends on axioms: [propext, Classical.choice, Quot.sound]
'Verif.C77_embedded_partial' depends on axioms: [propext, Classical.choice, Quot.sound]
'Verif.C77_crash_partial' depends on axioms: [propext, Classical.choice, Quot.sound]
'Verif.C77_refuted_glyph12' depends on axioms: [propext, Quot.sound]
'Verif.C77_refuted_glyph12_all' depends on axioms: [propext, Classical.choice, Quot.sound]
'Verif.C77_refuted_crash' depends on axioms: [propext, Quot.sound]
'Verif.C77_refuted_missing' depends on axioms: [propext, Quot.sound]
'Verif.C78_read_partial' depends on axioms: [propext, Classical.choice, Quot.sound]
'Verif.C78_rewritten_partial' depends on axioms: [propext, Classical.choice, Quot.sound]
'Verif.C78_entry' depends on axioms: [propext, Classical.choice, Quot.sound]
'Verif.C78_no_entry' depends on axioms: [propext, Classical.choice, Quot.sound]
'Verif.C78_refuted_blanks' depends on axioms: [propext, Classical.choice, Quot.sound]
'Verif.C78_refuted_slash' depends on axioms: [propext, Classical.choice, Quot.sound]
'Verif.C78_refuted_comment' depends on axioms: [propext, Classical.choice, Quot.sound]
'Verif.C78_refuted_paren' depends on axioms: [propext, Classical.choice, Quot.sound]
'Verif.C79_pages_partial' depends on axioms: [propext, Classical.choice, Quot.sound]
'Verif.C79_refuted_indirect' depends on axioms: [propext, Classical.choice, Quot.sound]
'Verif.C79_refuted_stream' depends on axioms: [propext, Classical.choice, Quot.sound]
'Verif.C80_remove_partial' depends on axioms: [propext, Classical.choice, Quot.sound]
'Verif.C80_duplicate_partial' depends on axioms: [propext, Classical.choice, Quot.sound]
'Verif.C80_duplicate_succeeds_partial' depends on axioms: [propext, Classical.choice, Quot.sound]
'Verif.C80_history_partial' depends on axioms: [propext, Classical.choice, Quot.sound]
'Verif.C80_refuted_parent' depends on axioms: [propext, Classical.choice, Quot.sound]
'Verif.C80_refuted_all' depends on axioms: [propext, Classical.choice, Quot.sound]
'Verif.C81_objects_partial' depends on axioms: [propext, Classical.choice, Quot.sound]
'Verif.C81_open_partial' depends on axioms: [propext, Classical.choice, Quot.sound]
'Verif.C81_openFrom_partial' depends on axioms: [propext, Classical.choice, Quot.sound]
'Verif.C81_refuted_update' depends on axioms: [propext, Quot.sound]
'Verif.C81_refuted_forms' depends on axioms: [propext, Quot.sound]
'Verif.C82_call' depends on axioms: [propext, Classical.choice, Quot.sound]
'Verif.C82_session' depends on axioms: [propext, Classical.choice, Quot.sound]
'Verif.C82_outcome' depends on axioms: [propext, Quot.sound]
'Verif.C82_contents' depends on axioms: [propext, Classical.choice, Quot.sound]
'Verif.C82_open' depends on axioms: [propext, Classical.choice, Quot.sound]
'Verif.C83_saved_partial' depends on axioms: [propext, Classical.choice, Quot.sound]
'Verif.C83_content_partial' depends on axioms: [propext, Classical.choice, Quot.sound]
'Verif.C83_refuted_images' depends on axioms: [propext, Classical.choice, Quot.sound]
'Verif.C83_refuted_mixed' depends on axioms: [propext, Classical.choice, Quot.sound]
'Verif.C84_run_partial' depends on axioms: [propext, Classical.choice, Quot.sound]
'Verif.C84_call_partial' depends on axioms: [propext, Classical.choice, Quot.sound]
'Verif.C84_calls_partial' depends on axioms: [propext, Classical.choice, Quot.sound]
'Verif.C84_save_partial' depends on axioms: [propext, Classical.choice, Quot.sound]
'Verif.C84_saved_partial' depends on axioms: [propext, Classical.choice, Quot.sound]
'Verif.C85_file_partial' depends on axioms: [propext, Classical.choice, Quot.sound]
'Verif.C85_refuted_all' depends on axioms: [propext, Classical.choice, Quot.sound]
'Verif.C85_refuted_utf16_all' depends on axioms: [propext, Classical.choice, Quot.sound]
'Verif.C85_refuted_date' depends on axioms: [propext, Classical.choice, Quot.sound]
'Verif.C85_refuted_utf16' depends on axioms: [propext, Classical.choice, Quot.sound]
'Verif.C86_session_partial' depends on axioms: [propext, Classical.choice, Quot.sound]
'Verif.C86_total' depends on axioms: [propext, Classical.choice, Quot.sound]
'Verif.C86_refuted_empty_all' depends on axioms: [propext, Classical.choice, Quot.sound]
'Verif.C86_refuted_twice_all' depends on axioms: [propext, Classical.choice, Quot.sound]
'Verif.C86_refuted_empty' depends on axioms: [propext, Classical.choice, Quot.sound]
'Verif.C86_refuted_twice' depends on axioms: [propext, Classical.choice, Quot.sound]
'Verif.C87_session_partial' depends on axioms: [propext, Classical.choice, Quot.sound]
'Verif.C87_position' depends on axioms: [propext, Classical.choice, Quot.sound]
'Verif.C87_refuted_advance' depends on axioms: [propext, Classical.choice, Quot.sound]
'Verif.C87_refuted_cell_all' depends on axioms: [propext, Classical.choice, Quot.sound]
'Verif.C87_refuted_cell' depends on axioms: [propext, Classical.choice, Quot.sound]
'Verif.C87_refuted_kern' depends on axioms: [propext, Classical.choice, Quot.sound]
'Verif.C87_refuted_measure' depends on axioms: [propext]
'Verif.C88_session_partial' depends on axioms: [propext, Classical.choice, Quot.sound]
'Verif.C88_text' depends on axioms: [propext, Classical.choice, Quot.sound]
'Verif.C88_picture' depends on axioms: [propext, Classical.choice, Quot.sound]
'Verif.C88_refuted_palette' depends on axioms: [propext, Classical.choice, Quot.sound]
'Verif.C88_refuted_mask_all' depends on axioms: [propext, Classical.choice, Quot.sound]
'Verif.C88_refuted_mask' depends on axioms: [propext, Classical.choice, Quot.sound]
'Verif.C88_refuted_font' depends on axioms: [propext, Classical.choice, Quot.sound]
'Verif.C88_refuted_level' depends on axioms: [propext, Quot.sound]
'Verif.C89_session' depends on axioms: [propext, Classical.choice, Quot.sound]
'Verif.C89_text' depends on axioms: [propext, Classical.choice, Quot.sound]
'Verif.C87_position' depends on axioms: [propext, Classical.choice, Quot.sound]
'Verif.C90_read_partial' depends on axioms: [propext, Classical.choice, Quot.sound]
'Verif.C90_none' depends on axioms: [propext, Classical.choice, Quot.sound]
'Verif.C90_pair' depends on axioms: [propext, Classical.choice, Quot.sound]
'Verif.C90_refuted_tables' depends on axioms: [propext, Classical.choice, Quot.sound]
'Verif.C90_refuted_format' depends on axioms: [propext, Classical.choice, Quot.sound]
'Verif.C91_open_partial' depends on axioms: [propext, Classical.choice, Quot.sound]
'Verif.C91_refuted_inherited' depends on axioms: [propext, Classical.choice, Quot.sound]
'Verif.C92_session_partial' depends on axioms: [propext, Classical.choice, Quot.sound]
'Verif.C92_refuted_strings' depends on axioms: [propext, Classical.choice, Quot.sound]
'Verif.C92_refuted_strings_all' depends on axioms: [propext, Classical.choice, Quot.sound]
'Verif.C93_run_partial' depends on axioms: [propext, Classical.choice, Quot.sound]
'Verif.C68_saved' depends on axioms: [propext, Classical.choice, Quot.sound]
'Verif.C34_refuted_line_end' depends on axioms: [propext, Quot.sound]
'Verif.C94_run_partial' depends on axioms: [propext, Classical.choice, Quot.sound]
'Verif.C94_protected_partial' depends on axioms: [propext, Classical.choice, Quot.sound]
'Verif.C71_refuted' depends on axioms: [propext, Classical.choice, Quot.sound]
'Verif.C95_refuted' depends on axioms: [propext, Classical.choice, Quot.sound]
'Verif.C95_refuted_dropped' depends on axioms: [propext, Classical.choice, Quot.sound]
'Verif.C95_witness' depends on axioms: [propext, Classical.choice, Quot.sound]
'Verif.C96_top_partial' depends on axioms: [propext, Classical.choice, Quot.sound]
'Verif.C96_refuted_blank' depends on axioms: [propext, Classical.choice, Quot.sound]
'Verif.C96_refuted_middle' depends on axioms: [propext, Classical.choice, Quot.sound]
'Verif.C96_refuted_bottom' depends on axioms: [propext, Classical.choice, Quot.sound]
'Verif.C96_refuted_gap' depends on axioms: [propext, Classical.choice, Quot.sound]
'Verif.C97_refuted_outside' depends on axioms: [propext, Classical.choice, Quot.sound]
'Verif.C97_refuted_accepted' depends on axioms: [propext, Classical.choice, Quot.sound]
'Verif.C97_refuted_bare_all' depends on axioms: [propext, Classical.choice, Quot.sound]
'Verif.C97_refuted_bare' depends on axioms: [propext, Classical.choice, Quot.sound]
'Verif.C97_refuted_shared_all' depends on axioms: [propext, Classical.choice, Quot.sound]
'Verif.C97_refuted_shared' depends on axioms: [propext, Classical.choice, Quot.sound]
'Verif.C15_saved_partial' depends on axioms: [propext, Classical.choice, Quot.sound]
'Verif.C98_refuted_all' depends on axioms: [propext, Classical.choice, Quot.sound]
'Verif.C98_refuted' depends on axioms: [propext, Classical.choice, Quot.sound]
'Verif.C99_refuted_all' depends on axioms: [propext, Classical.choice, Quot.sound]
'Verif.C99_refuted' depends on axioms: [propext, Classical.choice, Quot.sound]
