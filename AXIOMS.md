# Axioms of the theorems in MANIFEST.json

Output of `#print axioms`, grouped. Nothing else occurs; no axiom is added by the project.

## none (3)

* `Emb.C58_tables`
* `Emb.C93_int_fails`
* `Emb.Extras.C128_item`

## propext (22)

* `Emb.C01_index_255_lost`
* `Emb.Dst.C03_fixed`
* `Emb.Exp.C08_escape`
* `Emb.Compress.C17_fails_empty`
* `Emb.Compress.C17_fails_256`
* `Emb.C42_short`
* `Emb.PecGraphics.C63_outside`
* `Emb.Dispatch.C65_no_pattern`
* `Emb.C69_jef_hoop`
* `Emb.Pec.C78_palette`
* `Emb.Pmv.C84_length`
* `Emb.Records.C88_barudan_needle_fails`
* `Emb.Enter.C92_points`
* `Emb.Enter.C92_commands`
* `Emb.Enter.C92_odd`
* `Emb.Enter.C92_short`
* `Emb.Enter.C92_empty`
* `Emb.Enter.C92_match`
* `Emb.C93_equal`
* `Emb.C93_int`
* `Emb.C93_set`
* `Emb.C127_edr`

## propext, Classical.choice, Quot.sound (731)

* `Emb.C01_decode_encode_partial`
* `Emb.C01_not_injective`
* `Emb.C02_write_spec`
* `Emb.C02_short`
* `Emb.Dst.C03_record`
* `Emb.Dst.C04_refuses`
* `Emb.Dst.C05_net`
* `Emb.Dst.C05_recognised`
* `Emb.Dst.C06_roundtrip_partial`
* `Emb.Dst.C06_speed_adds_stitch`
* `Emb.Dst.C07_length`
* `Emb.Dst.C07_header_partial`
* `Emb.Dst.C07_long_name_overflows`
* `Emb.Exp.C08_roundtrip`
* `Emb.Exp.C08_sequin_shifts`
* `Emb.Jef.C09_roundtrip_partial`
* `Emb.Jef.C10_count_partial`
* `Emb.Jef.C10_written`
* `Emb.Jef.C10_offset`
* `Emb.Jef.C10_units`
* `Emb.Jef.C10_distinct`
* `Emb.Jef.C10_nearest`
* `Emb.Jef.C10_leading_change`
* `Emb.Jef.C10_empty_fails`
* `Emb.Pec.C11_written`
* `Emb.Pec.C12_exact`
* `Emb.Pec.C12_strikes_partial`
* `Emb.Pec.C12_extra_strike`
* `Emb.U01.C13_exact`
* `Emb.U01.C13_roundtrip_partial`
* `Emb.U01.C13_speeds_partial`
* `Emb.U01.C13_needles`
* `Emb.U01.C13_fast_loses_stitch`
* `Emb.U01.C13_both_lose_stitch`
* `Emb.U01.C13_needle_range`
* `Emb.Tbf.C14_exact`
* `Emb.Tbf.C14_roundtrip_partial`
* `Emb.Tbf.C14_still_jump`
* `Emb.Tbf.C14_needle_zero`
* `Emb.Xxx.C15_exact`
* `Emb.Xxx.C15_roundtrip_partial`
* `Emb.Xxx.C15_limit_stitch`
* `Emb.Xxx.C15_stop`
* `Emb.Vp3.C16_block`
* `Emb.Vp3.C16_fraction`
* `Emb.Vp3.C16_file_partial`
* `Emb.Vp3.C16_file_close`
* `Emb.Vp3.C16_file_fraction`
* `Emb.Vp3.C16_encoded`
* `Emb.Vp3.read_file`
* `Emb.Vp3.C16_axis_fails`
* `Emb.Vp3.C16_centre_fails`
* `Emb.Vp3.C16_speed_fails`
* `Emb.Vp3.C16_far_fails`
* `Emb.Vp3.C16_text_fails`
* `Emb.Compress.C17_roundtrip_partial`
* `Emb.Compress.C17_terminates`
* `Emb.Compress.C17_bounds`
* `Emb.C18_no_drift`
* `Emb.C18_exact`
* `Emb.C19_fits`
* `Emb.Dst.C19_dst_never_raises`
* `Emb.C20_single_end`
* `Emb.C21_low_level`
* `Emb.C21_no_speeds`
* `Emb.C21_no_sequins`
* `Emb.C21_kinds`
* `Emb.C21_stops`
* `Emb.C21_ejects`
* `Emb.C22_step_length`
* `Emb.C23_gap_far`
* `Emb.C23_gap_near`
* `Emb.C23_gap_total`
* `Emb.C24_strikes`
* `Emb.C24_exact`
* `Emb.C25_sequin_mode`
* `Emb.C26_at_needle`
* `Emb.C27_only_zero_division`
* `Emb.C27_total`
* `Emb.C27_thread_count`
* `Emb.C27_needle_mode`
* `Emb.C28_leading`
* `Emb.C28_trailing`
* `Emb.C28_between_partial`
* `Emb.C28_flagged_ignored`
* `Emb.C29_trims`
* `Emb.C30_in_order`
* `Emb.C30_words_in_order`
* `Emb.C30_explicit_partial`
* `Emb.C30_set_order`
* `Emb.C30_set_next`
* `Emb.C30_leading_break_shifts`
* `Emb.C31_cycle_partial`
* `Emb.C31_range_partial`
* `Emb.C31_256_colours`
* `Emb.C31_needle_cycle_partial`
* `Emb.C31_needle_range_partial`
* `Emb.C31_mode`
* `Emb.C32_lock`
* `Emb.C32_anchor_near`
* `Emb.C32_within`
* `Emb.C32_needle_stays`
* `Emb.C33_twice_partial`
* `Emb.C33_needles_partial`
* `Emb.C33_not_stops`
* `Emb.C33_not_ties`
* `Emb.C33_not_leading`
* `Emb.C33_not_rounding`
* `Emb.C33_not_exempted`
* `Emb.C33_not_unequal_limits`
* `Emb.C34_matrix`
* `Emb.C34_needle_fixed`
* `Emb.C35_multiply_spec`
* `Emb.C35_identity_spec`
* `Emb.C35_point_spec`
* `Emb.C35_point_multiply`
* `Emb.C35_monoid`
* `Emb.C35_basic_points`
* `Emb.C35_post_pre`
* `Emb.C35_affine_closed`
* `Emb.C35_cat`
* `Emb.C35_imatmul_returns_none`
* `Emb.C36_not_affine`
* `Emb.C36_inverse_defined`
* `Emb.C36_inverse_spec`
* `Emb.C36_inverse_inverse`
* `Emb.C36_inverse_again`
* `Emb.C36_point_roundtrip`
* `Emb.C36_affine`
* `Emb.C37_scale_about`
* `Emb.C37_rotate_about`
* `Emb.C37_fixed_point`
* `Emb.C37_affine`
* `Emb.C38_nearest`
* `Emb.C38_exact`
* `Emb.C38_palette`
* `Emb.C39_distance`
* `Emb.C39_distTo`
* `Emb.C40_unique`
* `Emb.C40_unique_list`
* `Emb.C40_result_shape`
* `Emb.C41_nonrepeat_partial`
* `Emb.C41_repeat_not_kept`
* `Emb.C41_repeat_kept_when_nearest`
* `Emb.C41_minimal_change`
* `Emb.C41_small_palettes`
* `Emb.C42_hex_roundtrip`
* `Emb.C42_channels`
* `Emb.C43_tight`
* `Emb.C43_empty`
* `Emb.C43_translate`
* `Emb.C44_centred`
* `Emb.C44_empty`
* `Emb.Blocks.C45_command_blocks`
* `Emb.Blocks.C46_color_blocks`
* `Emb.Blocks.C48_every_colour_partial`
* `Emb.Ops.C49_restores_partial`
* `Emb.Ops.C49_stops_become_colours`
* `Emb.C50_exact`
* `Emb.C50_sewing_kept_partial`
* `Emb.C50_edited`
* `Emb.C50_no_clipping`
* `Emb.C50_no_thresholds`
* `Emb.C50_stop_lost`
* `Emb.Blocks.C51_single_run_partial`
* `Emb.Blocks.C52_keeps_partial`
* `Emb.Blocks.C52_actual`
* `Emb.Heap.C53_list_calls_partial`
* `Emb.Heap.C53_apart_partial`
* `Emb.Heap.C53_translate_fails`
* `Emb.Heap.C53_plus_actual`
* `Emb.Heap.C53_fails`
* `Emb.Heap.step_view`
* `Emb.Heap.addPattern_view`
* `Emb.Heap.C54_derived`
* `Emb.Heap.C54_normalize`
* `Emb.Heap.C54_result`
* `Emb.Heap.C54_write_partial`
* `Emb.Heap.C54_unencoded_fails`
* `Emb.Ops.C55_entry_partial`
* `Emb.Ops.C55_running_sums`
* `Emb.Ops.C55_agree`
* `Emb.Ops.C55_insert_partial`
* `Emb.Ops.C55_insert_front`
* `Emb.Ops.C55_insert_end`
* `Emb.Ops.C55_insert_outside`
* `Emb.Ops.C55_fails`
* `Emb.Ops.C56_appends_partial`
* `Emb.Ops.C56_colours_partial`
* `Emb.Ops.C56_empty`
* `Emb.Ops.C56_no_thread`
* `Emb.Ops.C56_unused_thread`
* `Emb.Blocks.C57_stable`
* `Emb.C58_roundtrip_partial`
* `Emb.C58_low_bits`
* `Emb.C58_unnamed`
* `Emb.C59_edr_read`
* `Emb.C59_col`
* `Emb.C59_inf_partial`
* `Emb.C59_inf_texts_partial`
* `Emb.C59_inf_non_ascii`
* `Emb.Readers.C60_ksm`
* `Emb.Readers.C60_dsb`
* `Emb.Readers.C60_dsz`
* `Emb.Readers.C60_fxy`
* `Emb.Readers.C60_gt`
* `Emb.Readers.C60_new`
* `Emb.Readers.C60_inb`
* `Emb.Readers.C60_10o`
* `Emb.Readers.C60_stc`
* `Emb.Readers.C60_sunstar`
* `Emb.Readers.C60_zhs`
* `Emb.Readers.C60_emd`
* `Emb.Readers.C60_100`
* `Emb.Readers.C60_mit`
* `Emb.Readers.C60_jpx`
* `Emb.Readers.C60_sew`
* `Emb.Readers.C60_bro_partial`
* `Emb.Readers.C60_bro_cut_off`
* `Emb.Readers.C60_zxy_partial`
* `Emb.Readers.C60_spx_partial`
* `Emb.Readers.C60_pcd`
* `Emb.Readers.C60_pcm`
* `Emb.Readers.C60_max_partial`
* `Emb.Readers.C60_dat_partial`
* `Emb.Readers.C60_dat_needle`
* `Emb.Readers.C60_exp`
* `Emb.Readers.C60_u01`
* `Emb.Readers.C60_pec`
* `Emb.Readers.C60_dst`
* `Emb.Generic.C61_nested`
* `Emb.Generic.C61_balanced_partial`
* `Emb.Generic.C61_numbered`
* `Emb.Generic.C61_left_out`
* `Emb.Generic.C61_matched`
* `Emb.Generic.C61_accepted`
* `Emb.Generic.C61_encoded`
* `Emb.Generic.C61_unclosed`
* `Emb.Generic.C61_join_first`
* `Emb.Png.C62_points`
* `Emb.Png.C62_line`
* `Emb.PecGraphics.C63_text`
* `Emb.PecGraphics.C63_scaled_inside`
* `Emb.PecGraphics.C63_scaled_margin`
* `Emb.PecGraphics.C63_drawn`
* `Emb.Dispatch.C64_no_dot`
* `Emb.Dispatch.C64_distinct`
* `Emb.Dispatch.C64_read`
* `Emb.Dispatch.C64_write`
* `Emb.Dispatch.C64_unknown`
* `Emb.Dispatch.C64_convert`
* `Emb.Dispatch.C64_convert_nothing`
* `Emb.Dispatch.C64_writable`
* `Emb.Dispatch.C64_other_extensions`
* `Emb.Dispatch.C65_settings`
* `Emb.Dispatch.C65_plain`
* `Emb.Xxx.C66_xxx`
* `Emb.Tbf.C66_tbf_partial`
* `Emb.Tbf.C66_long_name`
* `Emb.Ops.C67_keeps_partial`
* `Emb.Ops.C67_replaces_partial`
* `Emb.Ops.C67_actual`
* `Emb.Pec.C68_layout_partial`
* `Emb.Pec.C68_name_shifts`
* `Emb.Pec.C68_too_many`
* `Emb.C69_xxx`
* `Emb.C69_u01`
* `Emb.C69_jef`
* `Emb.Dst.C69_dst`
* `Emb.Csv.C70_roundtrip_partial`
* `Emb.Csv.C70_rows`
* `Emb.Csv.C70_thread_loses`
* `Emb.Csv.C70_quote_breaks`
* `Emb.Csv.C70_quote_shifts`
* `Emb.Json.C71_roundtrip_partial`
* `Emb.Json.C71_elsewhere`
* `Emb.Json.C71_unnamed`
* `Emb.Generic.C72_positions`
* `Emb.Generic.C72_framed`
* `Emb.Png.C73_picture`
* `Emb.Png.C73_covered`
* `Emb.Png.C73_stitches`
* `Emb.Png.C73_wide_line`
* `Emb.Png.C73_rows`
* `Emb.C74_added_partial`
* `Emb.C74_moved`
* `Emb.C74_normalized`
* `Emb.C74_matrix_fails`
* `Emb.C74_break_fails`
* `Emb.Compress.C76_expand`
* `Emb.Compress.C76_expand_exact`
* `Emb.Compress.C76_expand_prefix`
* `Emb.Dst.C77_header`
* `Emb.Dst.C77_file`
* `Emb.Dst.C77_comma_fails`
* `Emb.Pec.C78_file_partial`
* `Emb.Pec.C78_roundtrip_partial`
* `Emb.Pec.C78_no_threads`
* `Emb.Pec.C78_no_stitches`
* `Emb.Pec.C78_accent_fails`
* `Emb.Pec.C78_thumbnails`
* `Emb.Pes.C79_version_1`
* `Emb.Pes.C79_version_6_partial`
* `Emb.Pes.C79_roundtrip_partial`
* `Emb.Pes.C79_accent_fails`
* `Emb.Pes.C79_accent_colour`
* `Emb.Pes.C79_jumps_only_fails`
* `Emb.Pes.C79_pec`
* `Emb.Pes.C79_addendum`
* `Emb.Pes.C80_blocks_partial`
* `Emb.Pes.C80_version_1_partial`
* `Emb.Pes.C80_version_6_partial`
* `Emb.Pes.C80_version_6_colour`
* `Emb.Pes.C80_adjacent_changes_fails`
* `Emb.Gcode.C81_read_partial`
* `Emb.Gcode.C81_kinds`
* `Emb.Gcode.C81_strikes`
* `Emb.Gcode.C81_places`
* `Emb.Gcode.C81_counts`
* `Emb.Gcode.C81_saved_partial`
* `Emb.Gcode.C81_speed_fails`
* `Emb.Gcode.C81_title_fails`
* `Emb.Gcode.C81_bracket_fails`
* `Emb.Gcode.C81_small_letters_fail`
* `Emb.Svg.C82_paths`
* `Emb.Svg.C82_stitches`
* `Emb.Svg.C82_viewbox`
* `Emb.Svg.C82_saved`
* `Emb.Svg.C82_plain`
* `Emb.Svg.C82_empty`
* `Emb.Svg.C82_escape`
* `Emb.Txt.C83_mimic`
* `Emb.Txt.C83_mimic_fails`
* `Emb.Txt.C83_normal_partial`
* `Emb.Txt.C83_whole`
* `Emb.Txt.C83_colour_fails`
* `Emb.Txt.C83_speed_fails`
* `Emb.Pmv.C84_roundtrip_partial`
* `Emb.Pmv.C84_trim_fails`
* `Emb.Pmv.C84_long_fails`
* `Emb.Pmv.C84_cut_short`
* `Emb.Pmv.C84_width`
* `Emb.Hus.C85_read`
* `Emb.Hus.C85_index_fails`
* `Emb.Containers.C86_dst_partial`
* `Emb.Containers.C86_stx`
* `Emb.Containers.C86_phb`
* `Emb.Containers.C86_phb_saved`
* `Emb.Containers.C86_phc`
* `Emb.Containers.C86_phc_cut`
* `Emb.Containers.C86_cut`
* `Emb.Shv.C87_read`
* `Emb.Shv.C87_overrun`
* `Emb.Shv.C87_no_colours_fails`
* `Emb.Shv.C87_empty_colour_fails`
* `Emb.Records.C88_dsb`
* `Emb.Records.C88_dsz`
* `Emb.Records.C88_fxy`
* `Emb.Records.C88_gt`
* `Emb.Records.C88_new`
* `Emb.Records.C88_inb`
* `Emb.Records.C88_10o`
* `Emb.Records.C88_stc`
* `Emb.Records.C88_zxy`
* `Emb.Records.C88_sunstar`
* `Emb.Records.C88_barudan`
* `Emb.Records.C88_dat`
* `Emb.Records.C88_emd`
* `Emb.Records.C88_100`
* `Emb.Records.C88_jpx_partial`
* `Emb.Records.C88_jpx_axis_fails`
* `Emb.Records.C88_sew`
* `Emb.Records.C88_bro`
* `Emb.Records.C88_spx`
* `Emb.Records.C88_mit`
* `Emb.Records.C88_mit_end_twice`
* `Emb.Records.C88_ksm`
* `Emb.Records.C88_zhs`
* `Emb.Records.C88_pcd`
* `Emb.Records.C88_pcm`
* `Emb.Records.C88_max`
* `Emb.SmallFiles.C89_dsb`
* `Emb.SmallFiles.C89_dsz`
* `Emb.SmallFiles.C89_sew`
* `Emb.SmallFiles.C89_pcd`
* `Emb.SmallFiles.C89_pcm`
* `Emb.SmallFiles.C89_pcm_index_fails`
* `Emb.SmallFiles.C89_jpx_partial`
* `Emb.SmallFiles.C89_zhs`
* `Emb.SmallFiles.C89_zhs_catalog_fails`
* `Emb.Pes.C90_header`
* `Emb.Pes.C90_version_4`
* `Emb.Pes.C90_plain`
* `Emb.Pes.C90_chart`
* `Emb.Pes.C90_table`
* `Emb.Pes.C90_counts`
* `Emb.Pes.C90_texts`
* `Emb.C91_shades`
* `Emb.C91_plain`
* `Emb.C91_blocks`
* `Emb.Enter.C92_thread`
* `Emb.Enter.C92_command`
* `Emb.Enter.C92_jobs`
* `Emb.C92_sewn`
* `Emb.C93_str`
* `Emb.C93_dict`
* `Emb.C93_dict_total`
* `Emb.C93_name`
* `Emb.C93_no_name`
* `Emb.C93_opaque`
* `Emb.C93_pattern`
* `Emb.C93_copy`
* `Emb.C93_values`
* `Emb.C94_written`
* `Emb.C94_exact`
* `Emb.C94_exp`
* `Emb.C94_dst`
* `Emb.C94_jef_partial`
* `Emb.C94_xxx_partial`
* `Emb.C94_vp3_partial`
* `Emb.C94_vp3_near`
* `Emb.C94_vp3_points`
* `Emb.C94_kept`
* `Emb.C94_pec_partial`
* `Emb.C94_pes_partial`
* `Emb.C95_needles`
* `Emb.C95_plain`
* `Emb.C95_in_turn_partial`
* `Emb.C95_u01_partial`
* `Emb.C95_tbf_partial`
* `Emb.Gcode.C96_program`
* `Emb.Gcode.C96_feed_move_fails`
* `Emb.C97_gap_fits`
* `Emb.C97_gap_near`
* `Emb.C97_lock_fits`
* `Emb.C97_no_drift`
* `Emb.C97_whole`
* `Emb.C98_no_loss_partial`
* `Emb.C98_goes_on`
* `Emb.C98_goes_on_jef`
* `Emb.C98_goes_on_xxx`
* `Emb.C98_exp_file`
* `Emb.C98_leading_exp`
* `Emb.C98_leading_change`
* `Emb.Readers.C99_ksm`
* `Emb.Readers.C99_dsb`
* `Emb.Readers.C99_dsz`
* `Emb.Readers.C99_fxy`
* `Emb.Readers.C99_gt`
* `Emb.Readers.C99_new`
* `Emb.Readers.C99_inb`
* `Emb.Readers.C99_10o`
* `Emb.Readers.C99_stc`
* `Emb.Readers.C99_sunstar`
* `Emb.Readers.C99_emd`
* `Emb.Readers.C99_100`
* `Emb.Readers.C99_mit`
* `Emb.Readers.C99_jpx`
* `Emb.Readers.C99_sew`
* `Emb.Readers.C99_zhs`
* `Emb.Readers.C99_pcd`
* `Emb.Readers.C99_pcm`
* `Emb.Readers.C99_exp`
* `Emb.Readers.C99_u01`
* `Emb.Readers.C99_dst`
* `Emb.Readers.C99_pec`
* `Emb.Readers.C99_tbf`
* `Emb.Readers.C99_jef`
* `Emb.Readers.C99_pec_part`
* `Emb.Readers.C99_pec_file`
* `Emb.Readers.C99_bro_partial`
* `Emb.Readers.C99_zxy_partial`
* `Emb.Readers.C99_max_partial`
* `Emb.Readers.C99_dat_partial`
* `Emb.Readers.C99_spx_partial`
* `Emb.Readers.C99_xxx_partial`
* `Emb.Readers.C99_xxx_fails`
* `Emb.Readers.C100_ksm`
* `Emb.Readers.C100_dsb`
* `Emb.Readers.C100_dsz`
* `Emb.Readers.C100_fxy`
* `Emb.Readers.C100_gt`
* `Emb.Readers.C100_new`
* `Emb.Readers.C100_inb`
* `Emb.Readers.C100_10o`
* `Emb.Readers.C100_stc`
* `Emb.Readers.C100_zhs`
* `Emb.Readers.C100_sunstar`
* `Emb.Readers.C100_pcd`
* `Emb.Readers.C100_pcm`
* `Emb.Readers.C100_max`
* `Emb.Readers.C100_jpx`
* `Emb.Readers.C100_sew`
* `Emb.Readers.C100_emd`
* `Emb.Readers.C100_bro`
* `Emb.Readers.C100_dst`
* `Emb.Readers.C100_u01_partial`
* `Emb.Readers.C100_u01_empty`
* `Emb.Readers.C100_tbf`
* `Emb.Readers.C100_jef`
* `Emb.Readers.C100_xxx`
* `Emb.Readers.C100_pec`
* `Emb.Readers.C100_exp_fails`
* `Emb.Readers.C100_pec_part`
* `Emb.Readers.C100_pec_file`
* `Emb.Readers.C100_pes`
* `Emb.Vp3.C100_vp3`
* `Emb.Hus.C100_hus`
* `Emb.Generic.C101_text_partial`
* `Emb.Generic.C101_sum`
* `Emb.Generic.C101_colour_fails`
* `Emb.Generic.C101_colour_missing`
* `Emb.Generic.C101_hidden`
* `Emb.Png.C102_guides_partial`
* `Emb.Png.C102_whole`
* `Emb.Png.C102_room`
* `Emb.Png.C102_position`
* `Emb.Png.C102_thin_fails`
* `Emb.C103_normalized`
* `Emb.C103_exp`
* `Emb.C103_dst`
* `Emb.C103_xxx`
* `Emb.C103_vp3`
* `Emb.C103_pmv`
* `Emb.C103_colours`
* `Emb.C103_jef_partial`
* `Emb.C103_u01_partial`
* `Emb.C103_tbf_partial`
* `Emb.C103_pec_partial`
* `Emb.C103_pes_partial`
* `Emb.C103_limit_fails`
* `Emb.C103_jef_fails`
* `Emb.C103_pec_fails`
* `Emb.C103_pes_fails`
* `Emb.C103_tbf_fails`
* `Emb.C104_design`
* `Emb.C104_settings`
* `Emb.C104_scale`
* `Emb.C104_rotate`
* `Emb.C105_design_partial`
* `Emb.C105_translate_partial`
* `Emb.C105_odd_fails`
* `Emb.Size.C106_jef`
* `Emb.Size.C106_xxx`
* `Emb.Size.C106_tbf`
* `Emb.Size.C106_shv`
* `Emb.Size.C106_vp3`
* `Emb.Size.C106_pec`
* `Emb.Size.C106_pes`
* `Emb.Size.C106_phb`
* `Emb.Size.C106_phc`
* `Emb.Size.C106_stx`
* `Emb.Size.C106_dst`
* `Emb.Size.C106_tap`
* `Emb.Size.C106_dsb`
* `Emb.Size.C106_sew`
* `Emb.Size.C106_jpx`
* `Emb.Size.C106_pcd`
* `Emb.Size.C106_pcm`
* `Emb.Size.C106_zhs_partial`
* `Emb.Size.C106_zhs_fails`
* `Emb.Size.C106_hus_partial`
* `Emb.Size.C106_hus_refused`
* `Emb.Size.C106_expand_refused`
* `Emb.Size.C106_hus_fails`
* `Emb.C107_flat_partial`
* `Emb.C107_needle_partial`
* `Emb.C107_transform`
* `Emb.C107_lengths_fails`
* `Emb.C107_wrap_fails`
* `Emb.C108_readable`
* `Emb.C108_readable_fine`
* `Emb.C108_readable_more`
* `Emb.C108_file`
* `Emb.C108_converted_partial`
* `Emb.C108_first_partial`
* `Emb.C108_colours_partial`
* `Emb.C108_goes_on`
* `Emb.C108_more_partial`
* `Emb.C108_goes_on_u01`
* `Emb.C108_vp3`
* `Emb.C108_other_units`
* `Emb.C109_speeds`
* `Emb.C109_ties`
* `Emb.C109_full_jump_partial`
* `Emb.C109_explicit_trim_partial`
* `Emb.C109_needles`
* `Emb.C109_threads`
* `Emb.C109_mode`
* `Emb.C109_not_explicit_trim`
* `Emb.C109_not_full_jump`
* `Emb.C110_appended_partial`
* `Emb.C110_refused`
* `Emb.C110_not_breaks`
* `Emb.C110_not_first`
* `Emb.C110_not_sequence`
* `Emb.C111_units`
* `Emb.C111_not_round`
* `Emb.Ct0.C112_layout_partial`
* `Emb.Ct0.C112_agree_partial`
* `Emb.Ct0.C112_overrun`
* `Emb.Ct0.C112_half`
* `Emb.Ct0.C112_without_needle`
* `Emb.C113_stitches`
* `Emb.C113_dst`
* `Emb.C113_jef`
* `Emb.C113_xxx`
* `Emb.C113_vp3`
* `Emb.C113_tbf`
* `Emb.C113_pec`
* `Emb.C113_pes`
* `Emb.C113_colours`
* `Emb.C113_svg`
* `Emb.C113_png`
* `Emb.C113_listed_partial`
* `Emb.C113_normalized`
* `Emb.C113_encoded`
* `Emb.C113_txt_fails`
* `Emb.C113_order_fails`
* `Emb.Files.C114_refused`
* `Emb.Files.C114_normalize`
* `Emb.Files.C114_none`
* `Emb.Files.C114_saved`
* `Emb.Files.C114_only`
* `Emb.Files.C114_reopened`
* `Emb.Files.C114_missing`
* `Emb.Files.C114_convert`
* `Emb.Files.C114_convert_refused`
* `Emb.Files.C114_lost`
* `Emb.Files.C114_fails`
* `Emb.Files.C114_unopened`
* `Emb.Files.C114_same_name`
* `Emb.C115_score`
* `Emb.C115_pace`
* `Emb.C115_between`
* `Emb.C115_stop_mode`
* `Emb.Growth.C116_length`
* `Emb.Growth.C116_unlimited`
* `Emb.Vp3.Tree.C117_tree`
* `Emb.Vp3.Tree.C117_text_fails`
* `Emb.Pec.C118_threads`
* `Emb.Hoop.C119_hull`
* `Emb.Hoop.C119_locked`
* `Emb.Hoop.C119_hoop`
* `Emb.Hoop.C119_matrix`
* `Emb.Hoop.C119_negative_fails`
* `Emb.Csv.Table.C120_read`
* `Emb.Csv.Table.C120_unknown`
* `Emb.C121_after_end_partial`
* `Emb.C121_plain_partial`
* `Emb.C121_sequence_fails`
* `Emb.C121_tie_off_fails`
* `Emb.C121_flags_fails`
* `Emb.C122_exp`
* `Emb.C122_readers`
* `Emb.C122_not_sewn`
* `Emb.C122_second_lost`
* `Emb.C123_asked`
* `Emb.C123_words`
* `Emb.Exp.C123_exp`
* `Emb.Xxx.C123_xxx`
* `Emb.C123_not_stitches`
* `Emb.C123_not_no_needles`
* `Emb.Exp.C124_exp_partial`
* `Emb.Exp.C124_converted_partial`
* `Emb.Exp.C124_not_stops`
* `Emb.Exp.C124_not_leading`
* `Emb.Elsewhere.C125_exp`
* `Emb.Elsewhere.C125_u01`
* `Emb.Elsewhere.C125_pec`
* `Emb.Elsewhere.C125_xxx`
* `Emb.Elsewhere.C125_tbf`
* `Emb.Elsewhere.C125_jef`
* `Emb.Elsewhere.C125_jef_short`
* `Emb.Elsewhere.C125_dst`
* `Emb.Vp3.Elsewhere.C126_partial`
* `Emb.Vp3.Elsewhere.C126_read`
* `Emb.Vp3.Elsewhere.C126_axis_fails`
* `Emb.C127_inf`
* `Emb.C127_col`
* `Emb.C127_pmv`
* `Emb.Extras.C128_derived`
* `Emb.Extras.C128_normalized`
* `Emb.Extras.C128_added`
* `Emb.Extras.C128_str`
* `Emb.C129_sequins`
* `Emb.C129_exact`
* `Emb.C129_held`
* `Emb.C129_dst`
* `Emb.C129_exp`
* `Emb.C129_jef`
* `Emb.C129_xxx`
* `Emb.C129_u01`
* `Emb.C129_tbf`
* `Emb.C129_vp3`
* `Emb.C129_loaded`
* `Emb.C129_loose`
* `Emb.C130_run`
* `Emb.C130_jef`
* `Emb.C130_dst`
* `Emb.C130_same`
* `Emb.C131_thread`
* `Emb.C131_jef_partial`
* `Emb.C131_dst_partial`
* `Emb.C131_lost`
* `Emb.C131_speed_fails`
* `Emb.C132_dst_choice`
* `Emb.C132_dst`
* `Emb.C132_csv_choice`
* `Emb.C132_csv`
* `Emb.C132_txt_choice`
* `Emb.C132_pes_other`
* `Emb.C132_pes`
* `Emb.C132_jef_choice`
* `Emb.C133_jef`
* `Emb.C133_xxx`
* `Emb.C133_dst`
* `Emb.C133_dst_count_partial`
* `Emb.C133_dst_not_count`
* `Emb.C133_u01`
* `Emb.C134_moved`
* `Emb.C134_amount_partial`
* `Emb.C134_not_amount`
* `Emb.C134_not_relative`
* `Emb.Xxx.C135_xxx_partial`
* `Emb.Xxx.C135_not_speed`
* `Emb.Xxx.C135_not_limit`
* `Emb.Xxx.C135_not_outline`
* `Emb.Listing.C136_listed`
* `Emb.Listing.C136_restored`
* `Emb.Listing.C136_counts`

## propext, Quot.sound (48)

* `Emb.C01_decode_fields`
* `Emb.C02_read_write`
* `Emb.C02_signed_roundtrip`
* `Emb.C02_sint8`
* `Emb.C02_array`
* `Emb.Dst.C05_jumps`
* `Emb.Pec.C11_read`
* `Emb.Xxx.C15_moving_trim`
* `Emb.C31_all_used`
* `Emb.C31_effective`
* `Emb.C42_hex_form`
* `Emb.C42_channels`
* `Emb.C42_any_case`
* `Emb.Blocks.C47_stitch_blocks`
* `Emb.Blocks.C48_fix`
* `Emb.Blocks.C48_double_change`
* `Emb.Ops.C49_fails`
* `Emb.Ops.C49_only_changes`
* `Emb.Blocks.C51_others`
* `Emb.Blocks.C51_actual`
* `Emb.Blocks.C51_second_run`
* `Emb.Blocks.C52_last_run`
* `Emb.Heap.C53_copy`
* `Emb.Heap.C53_each_fails`
* `Emb.C59_edr`
* `Emb.PecGraphics.C63_mark`
* `Emb.PecGraphics.C63_unmark`
* `Emb.Dispatch.C64_extension`
* `Emb.Dispatch.C64_hidden`
* `Emb.Dispatch.C65_encoder`
* `Emb.Dispatch.C65_format_settings`
* `Emb.U01.C66_u01`
* `Emb.Ops.C67_fails`
* `Emb.Png.C73_header`
* `Emb.Blocks.C75_singletons`
* `Emb.Shv.C87_cut_fails`
* `Emb.Pes.C90_modulo`
* `Emb.Enter.C92_block`
* `Emb.Enter.C92_block_empty`
* `Emb.C93_hash`
* `Emb.C93_unique`
* `Emb.C93_set_order`
* `Emb.Generic.C101_fill`
* `Emb.With.spec`
* `Emb.Csv.Table.C120_table`
* `Emb.Extras.C128_entered`
* `Emb.Extras.C128_clear`
* `Emb.C132_pes_choice`
