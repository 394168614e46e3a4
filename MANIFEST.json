{
 "claims": [
  {
   "property": "C01",
   "status": "partial",
   "theorems": [
    "Emb.C01_decode_encode_partial",
    "Emb.C01_decode_fields",
    "Emb.C01_index_255_lost",
    "Emb.C01_not_injective"
   ],
   "note": "Round trip holds for indices 0..254; index 255 overflows into the next field, proved by witness."
  },
  {
   "property": "C02",
   "status": "proved",
   "theorems": [
    "Emb.C02_write_spec",
    "Emb.C02_read_write",
    "Emb.C02_signed_roundtrip",
    "Emb.C02_sint8",
    "Emb.C02_short",
    "Emb.C02_array"
   ],
   "note": "C02_array: write_int_array_8."
  },
  {
   "property": "C03",
   "status": "proved",
   "theorems": [
    "Emb.Dst.C03_record",
    "Emb.Dst.C03_fixed"
   ],
   "note": ""
  },
  {
   "property": "C04",
   "status": "proved",
   "theorems": [
    "Emb.Dst.C04_refuses"
   ],
   "note": ""
  },
  {
   "property": "C05",
   "status": "proved",
   "theorems": [
    "Emb.Dst.C05_net",
    "Emb.Dst.C05_jumps",
    "Emb.Dst.C05_recognised"
   ],
   "note": "Recognition by the reader is proved for trim_at >= 1."
  },
  {
   "property": "C06",
   "status": "partial",
   "theorems": [
    "Emb.Dst.C06_roundtrip_partial",
    "Emb.Dst.C06_speed_adds_stitch"
   ],
   "note": "For sources without SLOW/FAST and without in-pattern limit changes; SLOW/FAST are written as stray stitches (witness proved)."
  },
  {
   "property": "C07",
   "status": "partial",
   "theorems": [
    "Emb.Dst.C07_length",
    "Emb.Dst.C07_header_partial",
    "Emb.Dst.C07_long_name_overflows"
   ],
   "note": "Exactly 512 bytes iff the text fits; proved to fit for names up to 240 bytes, and to overflow for names of 508 bytes or more."
  },
  {
   "property": "C08",
   "status": "proved",
   "theorems": [
    "Emb.Exp.C08_roundtrip",
    "Emb.Exp.C08_escape",
    "Emb.Exp.C08_sequin_shifts"
   ],
   "note": "Assumes a given sequin_contingency is one of the four documented codes. Sources that change the limits or switch sequins on are excluded; the latter shift the design (witness proved)."
  },
  {
   "property": "C09",
   "status": "partial",
   "theorems": [
    "Emb.Jef.C09_roundtrip_partial"
   ],
   "note": "Assumes a given sequin_contingency is one of the four documented codes. For encoded patterns that do not start with a colour change (see C10); a second STOP in the same colour is shown as a colour change. The trims the reader infers afterwards are covered by C50."
  },
  {
   "property": "C10",
   "status": "partial",
   "theorems": [
    "Emb.Jef.C10_count_partial",
    "Emb.Jef.C10_written",
    "Emb.Jef.C10_offset",
    "Emb.Jef.C10_units",
    "Emb.Jef.C10_distinct",
    "Emb.Jef.C10_nearest",
    "Emb.Jef.C10_leading_change",
    "Emb.Jef.C10_empty_fails"
   ],
   "note": "Fails for encoded patterns that start with a colour change and for patterns without any thread (witnesses proved)."
  },
  {
   "property": "C11",
   "status": "proved",
   "theorems": [
    "Emb.Pec.C11_written",
    "Emb.Pec.C11_read"
   ],
   "note": ""
  },
  {
   "property": "C12",
   "status": "partial",
   "theorems": [
    "Emb.Pec.C12_exact",
    "Emb.Pec.C12_strikes_partial",
    "Emb.Pec.C12_extra_strike"
   ],
   "note": "Assumes a given sequin_contingency is one of the four documented codes. C12_exact says exactly what is read back; the section can contain extra stitches after a jump (witness proved)."
  },
  {
   "property": "C13",
   "status": "partial",
   "theorems": [
    "Emb.U01.C13_exact",
    "Emb.U01.C13_roundtrip_partial",
    "Emb.U01.C13_speeds_partial",
    "Emb.U01.C13_needles",
    "Emb.U01.C13_fast_loses_stitch",
    "Emb.U01.C13_both_lose_stitch",
    "Emb.U01.C13_needle_range"
   ],
   "note": "Assumes a given sequin_contingency is one of the four documented codes. C13_exact says exactly what is read back; a pending FAST/SLOW swallows a stitch that does not move, both together turn a stitch into TRIM and JUMP, needle 0 and needles from 15 change (witnesses proved)."
  },
  {
   "property": "C14",
   "status": "partial",
   "theorems": [
    "Emb.Tbf.C14_exact",
    "Emb.Tbf.C14_roundtrip_partial",
    "Emb.Tbf.C14_still_jump",
    "Emb.Tbf.C14_needle_zero"
   ],
   "note": "Assumes a given sequin_contingency is one of the four documented codes. C14_exact says exactly what is read back; a jump that does not move is read as a trim, needle 0 as a stop (witnesses proved)."
  },
  {
   "property": "C15",
   "status": "partial",
   "theorems": [
    "Emb.Xxx.C15_exact",
    "Emb.Xxx.C15_roundtrip_partial",
    "Emb.Xxx.C15_limit_stitch",
    "Emb.Xxx.C15_stop",
    "Emb.Xxx.C15_moving_trim"
   ],
   "note": "Assumes a given sequin_contingency is one of the four documented codes. C15_exact says exactly what is read back; stitches of exactly 124 units are read as jumps and stops as colour changes (witnesses proved)."
  },
  {
   "property": "C16",
   "status": "partial",
   "theorems": [
    "Emb.Vp3.C16_block",
    "Emb.Vp3.C16_fraction",
    "Emb.Vp3.C16_file_partial",
    "Emb.Vp3.C16_file_close",
    "Emb.Vp3.C16_file_fraction",
    "Emb.Vp3.C16_encoded",
    "Emb.Vp3.read_file",
    "Emb.Vp3.C16_axis_fails",
    "Emb.Vp3.C16_centre_fails",
    "Emb.Vp3.C16_speed_fails",
    "Emb.Vp3.C16_far_fails",
    "Emb.Vp3.C16_text_fails"
   ],
   "note": "Stitch bytes of a block: proved exactly for whole positions, within one unit for any positions, for commands up to 7 and 16 bit distances. Whole files: exact with a whole centre and no block starting on an axis, within one unit with any centre, and less than three units (0.3 mm) off for positions that are not whole (C16_file_fraction). C16_encoded: from any normalized design within 1.6 m to the file and back. The code breaks the full statement (blocks on an axis, half-integral centre, speed commands, far jumps, non-ASCII texts), with a witness for each."
  },
  {
   "property": "C17",
   "status": "partial",
   "theorems": [
    "Emb.Compress.C17_roundtrip_partial",
    "Emb.Compress.C17_fails_empty",
    "Emb.Compress.C17_fails_256",
    "Emb.Compress.C17_terminates",
    "Emb.Compress.C17_bounds"
   ],
   "note": "Proved for all byte strings of length 1..65535 whose length has low byte >= high byte; false of the code for the empty string and e.g. 256 bytes (witnesses). Also: expand terminates on every input, returns only bytes, and respects the size argument up to one back reference."
  },
  {
   "property": "C18",
   "status": "proved",
   "theorems": [
    "Emb.C18_no_drift",
    "Emb.C18_exact"
   ],
   "note": ""
  },
  {
   "property": "C19",
   "status": "proved",
   "theorems": [
    "Emb.C19_fits",
    "Emb.Dst.C19_dst_never_raises"
   ],
   "note": "Assumes a given sequin_contingency is one of the four documented codes."
  },
  {
   "property": "C20",
   "status": "proved",
   "theorems": [
    "Emb.C20_single_end"
   ],
   "note": "Assumes a given sequin_contingency is one of the four documented codes."
  },
  {
   "property": "C21",
   "status": "proved",
   "theorems": [
    "Emb.C21_low_level",
    "Emb.C21_no_speeds",
    "Emb.C21_no_sequins",
    "Emb.C21_kinds",
    "Emb.C21_stops",
    "Emb.C21_ejects"
   ],
   "note": "Assumes a given sequin_contingency is one of the four documented codes."
  },
  {
   "property": "C22",
   "status": "proved",
   "theorems": [
    "Emb.C22_step_length"
   ],
   "note": "Assumes a given sequin_contingency is one of the four documented codes. For tie stitches sqrt/atan2 are assumed to satisfy Libm.Sound (axis distances bounded by the computed distance)."
  },
  {
   "property": "C23",
   "status": "proved",
   "theorems": [
    "Emb.C23_gap_far",
    "Emb.C23_gap_near",
    "Emb.C23_gap_total"
   ],
   "note": ""
  },
  {
   "property": "C24",
   "status": "proved",
   "theorems": [
    "Emb.C24_strikes",
    "Emb.C24_exact"
   ],
   "note": "For every source, settings and libm: the sequence of penetrations of the encoding equals a separately written walk over the source; C24_exact is the special case of plain stitching."
  },
  {
   "property": "C25",
   "status": "proved",
   "theorems": [
    "Emb.C25_sequin_mode"
   ],
   "note": "Assumes a given sequin_contingency is one of the four documented codes."
  },
  {
   "property": "C26",
   "status": "proved",
   "theorems": [
    "Emb.C26_at_needle"
   ],
   "note": "Assumes a given sequin_contingency is one of the four documented codes."
  },
  {
   "property": "C27",
   "status": "proved",
   "theorems": [
    "Emb.C27_only_zero_division",
    "Emb.C27_total",
    "Emb.C27_thread_count",
    "Emb.C27_needle_mode"
   ],
   "note": "Assumes a given sequin_contingency is one of the four documented codes. Thread count for COLOR_CHANGE and NEEDLE_SET modes."
  },
  {
   "property": "C28",
   "status": "partial",
   "theorems": [
    "Emb.C28_leading",
    "Emb.C28_trailing",
    "Emb.C28_between_partial",
    "Emb.C28_flagged_ignored"
   ],
   "note": "The look-ahead compares whole words: a following stitch with flag bits is not seen (witness proved)."
  },
  {
   "property": "C29",
   "status": "proved",
   "theorems": [
    "Emb.C29_trims"
   ],
   "note": "Assumes a given sequin_contingency is one of the four documented codes."
  },
  {
   "property": "C30",
   "status": "partial",
   "theorems": [
    "Emb.C30_in_order",
    "Emb.C30_words_in_order",
    "Emb.C30_explicit_partial",
    "Emb.C30_set_order",
    "Emb.C30_set_next",
    "Emb.C30_leading_break_shifts"
   ],
   "note": "Explicit index on a change: proved when no COLOR_BREAK precedes; an ignored leading COLOR_BREAK shifts the plan (witness proved)."
  },
  {
   "property": "C31",
   "status": "partial",
   "theorems": [
    "Emb.C31_cycle_partial",
    "Emb.C31_range_partial",
    "Emb.C31_all_used",
    "Emb.C31_256_colours",
    "Emb.C31_needle_cycle_partial",
    "Emb.C31_needle_range_partial",
    "Emb.C31_mode",
    "Emb.C31_effective"
   ],
   "note": "Up to 254 change commands; the packed word breaks at thread index 255 (witness proved)."
  },
  {
   "property": "C32",
   "status": "proved",
   "theorems": [
    "Emb.C32_lock",
    "Emb.C32_anchor_near",
    "Emb.C32_within",
    "Emb.C32_needle_stays",
    "Emb.C24_strikes"
   ],
   "note": "C32_anchor_near/C32_within assume Libm.Sound for sqrt/atan2/cos/sin. C24_strikes says where ties are inserted and nothing else."
  },
  {
   "property": "C33",
   "status": "partial",
   "theorems": [
    "Emb.C33_twice_partial",
    "Emb.C33_needles_partial",
    "Emb.C33_not_stops",
    "Emb.C33_not_ties",
    "Emb.C33_not_leading",
    "Emb.C33_not_rounding",
    "Emb.C33_not_exempted",
    "Emb.C33_not_unequal_limits"
   ],
   "note": "Proved for the COLOR_CHANGE and the NEEDLE_SET mode without ties and transforms, equal (or no) length limits, sources without the commands that switch trims, ties, limits or sequins on the way and with at most 254 changes; with COLOR_CHANGE also without explicit threads or needles, reordering, or a second change before the first stitch (with NEEDLE_SET all these are allowed); with rounding the first result must lie on the grid. False otherwise: each C33_not_* gives a pattern whose second pass differs."
  },
  {
   "property": "C34",
   "status": "proved",
   "theorems": [
    "Emb.C34_matrix",
    "Emb.C34_needle_fixed",
    "Emb.C24_strikes"
   ],
   "note": ""
  },
  {
   "property": "C35",
   "status": "proved",
   "theorems": [
    "Emb.C35_multiply_spec",
    "Emb.C35_identity_spec",
    "Emb.C35_point_spec",
    "Emb.C35_point_multiply",
    "Emb.C35_monoid",
    "Emb.C35_basic_points",
    "Emb.C35_post_pre",
    "Emb.C35_affine_closed",
    "Emb.C35_cat",
    "Emb.C35_imatmul_returns_none",
    "Emb.C36_not_affine"
   ],
   "note": "Exact rationals for floats; cos/sin are arbitrary values. C36_not_affine: why the matrices acting on points are affine."
  },
  {
   "property": "C36",
   "status": "proved",
   "theorems": [
    "Emb.C36_inverse_defined",
    "Emb.C36_inverse_spec",
    "Emb.C36_inverse_inverse",
    "Emb.C36_inverse_again",
    "Emb.C36_point_roundtrip",
    "Emb.C36_affine",
    "Emb.C36_not_affine"
   ],
   "note": "C36_affine: products and inverses stay affine. C36_not_affine: for others, which only a caller can make, points do not come back."
  },
  {
   "property": "C37",
   "status": "proved",
   "theorems": [
    "Emb.C37_scale_about",
    "Emb.C37_rotate_about",
    "Emb.C37_fixed_point",
    "Emb.C37_affine"
   ],
   "note": ""
  },
  {
   "property": "C38",
   "status": "proved",
   "theorems": [
    "Emb.C38_nearest",
    "Emb.C38_exact",
    "Emb.C38_palette"
   ],
   "note": ""
  },
  {
   "property": "C39",
   "status": "proved",
   "theorems": [
    "Emb.C39_distance",
    "Emb.C39_distTo"
   ],
   "note": ""
  },
  {
   "property": "C40",
   "status": "proved",
   "theorems": [
    "Emb.C40_unique",
    "Emb.C40_unique_list",
    "Emb.C40_result_shape"
   ],
   "note": "For every iteration order of the Python set."
  },
  {
   "property": "C41",
   "status": "partial",
   "theorems": [
    "Emb.C41_nonrepeat_partial",
    "Emb.C41_repeat_not_kept",
    "Emb.C41_repeat_kept_when_nearest",
    "Emb.C41_minimal_change",
    "Emb.C41_small_palettes"
   ],
   "note": "Consecutive different threads differ (with two palette entries). That a repeated thread keeps its index is false; a witness is proved."
  },
  {
   "property": "C42",
   "status": "proved",
   "theorems": [
    "Emb.C42_hex_roundtrip",
    "Emb.C42_hex_form",
    "Emb.C42_channels",
    "Emb.C42_channels'",
    "Emb.C42_short",
    "Emb.C42_any_case"
   ],
   "note": ""
  },
  {
   "property": "C43",
   "status": "proved",
   "theorems": [
    "Emb.C43_tight",
    "Emb.C43_empty",
    "Emb.C43_translate"
   ],
   "note": ""
  },
  {
   "property": "C44",
   "status": "proved",
   "theorems": [
    "Emb.C44_centred",
    "Emb.C44_empty"
   ],
   "note": "Floats as exact rationals."
  },
  {
   "property": "C45",
   "status": "proved",
   "theorems": [
    "Emb.Blocks.C45_command_blocks"
   ],
   "note": ""
  },
  {
   "property": "C46",
   "status": "proved",
   "theorems": [
    "Emb.Blocks.C46_color_blocks"
   ],
   "note": ""
  },
  {
   "property": "C47",
   "status": "proved",
   "theorems": [
    "Emb.Blocks.C47_stitch_blocks"
   ],
   "note": ""
  },
  {
   "property": "C48",
   "status": "partial",
   "theorems": [
    "Emb.Blocks.C48_fix",
    "Emb.Blocks.C48_every_colour_partial",
    "Emb.Blocks.C48_double_change"
   ],
   "note": "C48_fix: threads kept, exactly as many fillers as colours used, idempotent. That every stitch block then has its thread in the list holds when each colour change follows something sewn (C48_every_colour_partial) and fails for two changes in a row (C48_double_change)."
  },
  {
   "property": "C49",
   "status": "partial",
   "theorems": [
    "Emb.Ops.C49_restores_partial",
    "Emb.Ops.C49_stops_become_colours",
    "Emb.Ops.C49_fails",
    "Emb.Ops.C49_only_changes"
   ],
   "note": "Holds when something is sewn before, between and after the stops and colour changes; fails for leading, doubled and trailing stops (C49_fails). C49_only_changes: whatever the commands and threads, nothing but colour changes becomes a stop, each in its place."
  },
  {
   "property": "C50",
   "status": "partial",
   "theorems": [
    "Emb.C50_exact",
    "Emb.C50_sewing_kept_partial",
    "Emb.C50_edited",
    "Emb.C50_no_clipping",
    "Emb.C50_no_thresholds",
    "Emb.C50_stop_lost"
   ],
   "note": "C50_exact gives the result exactly, for every threshold and clipping. The claim that only jumps are dropped fails: with clipping a STOP between cancelling jumps is deleted (witness proved)."
  },
  {
   "property": "C51",
   "status": "partial",
   "theorems": [
    "Emb.Blocks.C51_single_run_partial",
    "Emb.Blocks.C51_others",
    "Emb.Blocks.C51_actual",
    "Emb.Blocks.C51_second_run"
   ],
   "note": "Holds for a pattern with a single run of jumps; the code drops every later run (C51_second_run). C51_actual says what it does to every pattern."
  },
  {
   "property": "C52",
   "status": "partial",
   "theorems": [
    "Emb.Blocks.C52_keeps_partial",
    "Emb.Blocks.C52_actual",
    "Emb.Blocks.C52_last_run"
   ],
   "note": "Non-jump commands kept in order for every pattern; trims exactly before runs of at least n jumps (C52_actual), except that a run at the very end of the pattern is counted one short (C52_last_run)."
  },
  {
   "property": "C53",
   "status": "partial",
   "theorems": [
    "Emb.Heap.C53_copy",
    "Emb.Heap.C53_list_calls_partial",
    "Emb.Heap.C53_apart_partial",
    "Emb.Heap.C53_each_fails",
    "Emb.Heap.C53_translate_fails",
    "Emb.Heap.C53_plus_actual",
    "Emb.Heap.C53_fails",
    "Emb.Heap.step_view",
    "Emb.Heap.addPattern_view"
   ],
   "note": "A memory of stitch cells with pattern objects, and programs of method calls. A copy is independent under every program of calls that only change lists; patterns that share no stitch objects are independent under every program. Missing because false: translate, transform, move_center_to_origin and the stop/duplicate-colour conversions write into stitch objects shared with the original (general theorem and witness), p + q overwrites leading thread changes of q (exact theorem), p += p moves twice (witness)."
  },
  {
   "property": "C54",
   "status": "partial",
   "theorems": [
    "Emb.Heap.C54_derived",
    "Emb.Heap.C54_normalize",
    "Emb.Heap.C54_result",
    "Emb.Heap.C54_write_partial",
    "Emb.Heap.C54_unencoded_fails"
   ],
   "note": "Proved for get_normalized_pattern with every setting, for any later program on the result, and for writes with encoding (including the calls the writers make on the pattern they get). Missing because false: with encode=False the PEC, PES, JEF, VP3 and PNG writers change the pattern itself (witness)."
  },
  {
   "property": "C55",
   "status": "partial",
   "theorems": [
    "Emb.Ops.C55_entry_partial",
    "Emb.Ops.C55_running_sums",
    "Emb.Ops.C55_agree",
    "Emb.Ops.C55_insert_partial",
    "Emb.Ops.C55_insert_front",
    "Emb.Ops.C55_insert_end",
    "Emb.Ops.C55_insert_outside",
    "Emb.Ops.C55_fails"
   ],
   "note": "Everything but one clause: a stitch inserted at the very end is relative to the last stitch entered by an absolute or relative call, which need not be the stitch before it (C55_fails)."
  },
  {
   "property": "C56",
   "status": "partial",
   "theorems": [
    "Emb.Ops.C56_appends_partial",
    "Emb.Ops.C56_colours_partial",
    "Emb.Ops.C56_empty",
    "Emb.Ops.C56_no_thread",
    "Emb.Ops.C56_unused_thread"
   ],
   "note": "Appends when the first pattern has stitches and a thread; otherwise an IndexError (C56_empty, C56_no_thread). Colours are kept when the first pattern has exactly one thread per colour (C56_colours_partial, C56_unused_thread)."
  },
  {
   "property": "C57",
   "status": "proved",
   "theorems": [
    "Emb.Blocks.C57_stable"
   ],
   "note": ""
  },
  {
   "property": "C58",
   "status": "partial",
   "theorems": [
    "Emb.C58_roundtrip_partial",
    "Emb.C58_low_bits",
    "Emb.C58_unnamed",
    "Emb.C58_tables"
   ],
   "note": "Every named command with every thread, needle and order; the words of NO_COMMAND and CONTINGENCY_SEQUIN_* have no name and cannot be read back (C58_unnamed)."
  },
  {
   "property": "C59",
   "status": "partial",
   "theorems": [
    "Emb.C59_edr",
    "Emb.C59_edr_read",
    "Emb.C59_col",
    "Emb.C59_inf_partial",
    "Emb.C59_inf_texts_partial",
    "Emb.C59_inf_non_ascii"
   ],
   "note": "EDR and COL proved (EDR also for cut files, C59_edr_read). INF: proved for ASCII texts that fit the length fields; lengths count characters, not bytes, so a non-ASCII description loses colours (C59_inf_non_ascii)."
  },
  {
   "property": "C60",
   "status": "partial",
   "theorems": [
    "Emb.Readers.C60_ksm",
    "Emb.Readers.C60_dsb",
    "Emb.Readers.C60_dsz",
    "Emb.Readers.C60_fxy",
    "Emb.Readers.C60_gt",
    "Emb.Readers.C60_new",
    "Emb.Readers.C60_inb",
    "Emb.Readers.C60_10o",
    "Emb.Readers.C60_stc",
    "Emb.Readers.C60_sunstar",
    "Emb.Readers.C60_zhs",
    "Emb.Readers.C60_emd",
    "Emb.Readers.C60_100",
    "Emb.Readers.C60_mit",
    "Emb.Readers.C60_jpx",
    "Emb.Readers.C60_sew",
    "Emb.Readers.C60_bro_partial",
    "Emb.Readers.C60_bro_cut_off",
    "Emb.Readers.C60_zxy_partial",
    "Emb.Readers.C60_spx_partial",
    "Emb.Readers.C60_pcd",
    "Emb.Readers.C60_pcm",
    "Emb.Readers.C60_max_partial",
    "Emb.Readers.C60_dat_partial",
    "Emb.Readers.C60_dat_needle",
    "Emb.Readers.C60_exp",
    "Emb.Readers.C60_u01",
    "Emb.Readers.C60_pec",
    "Emb.Readers.C60_dst"
   ],
   "note": "Proved for the stitch parts of KSM, DSB, DSZ, FXY, GT, NEW, INB, 10O, STC, Sunstar DAT, ZHS, EMD, 100, MIT, JPX, SEW, PCD/PCQ/PCS, PCM, EXP, U01, PEC and DST. The claim is false for files cut off within a record in BRO, SPX, MAX and within the header in ZXY (TypeError), for Barudan needle changes in DAT (AttributeError), and SPX adds no END; the *_partial theorems say exactly when."
  },
  {
   "property": "C61",
   "status": "partial",
   "theorems": [
    "Emb.Generic.C61_nested",
    "Emb.Generic.C61_balanced_partial",
    "Emb.Generic.C61_numbered",
    "Emb.Generic.C61_left_out",
    "Emb.Generic.C61_matched",
    "Emb.Generic.C61_accepted",
    "Emb.Generic.C61_encoded",
    "Emb.Generic.C61_unclosed",
    "Emb.Generic.C61_join_first"
   ],
   "note": "Every pattern and every choice of texts that are plain strings. The claim is false for patterns without a written END: the last block, colour and document are then never closed (C61_unclosed); C61_balanced_partial and C61_encoded give the exact condition, met by every encoded pattern when END has a text."
  },
  {
   "property": "C62",
   "status": "proved",
   "theorems": [
    "Emb.Png.C62_points",
    "Emb.Png.C62_line"
   ],
   "note": "Every pair of integer points; the loop is run with fuel and shown to end by itself within the larger distance."
  },
  {
   "property": "C63",
   "status": "proved",
   "theorems": [
    "Emb.PecGraphics.C63_mark",
    "Emb.PecGraphics.C63_unmark",
    "Emb.PecGraphics.C63_text",
    "Emb.PecGraphics.C63_scaled_inside",
    "Emb.PecGraphics.C63_scaled_margin",
    "Emb.PecGraphics.C63_drawn",
    "Emb.PecGraphics.C63_outside"
   ],
   "note": "For coordinates inside the bitmap (outside, a negative column wraps: witness proved); drawing a pattern never leaves it. Floats as exact rationals."
  },
  {
   "property": "C64",
   "status": "proved",
   "theorems": [
    "Emb.Dispatch.C64_extension",
    "Emb.Dispatch.C64_no_dot",
    "Emb.Dispatch.C64_hidden",
    "Emb.Dispatch.C64_distinct",
    "Emb.Dispatch.C64_read",
    "Emb.Dispatch.C64_write",
    "Emb.Dispatch.C64_unknown",
    "Emb.Dispatch.C64_convert",
    "Emb.Dispatch.C64_convert_nothing",
    "Emb.Dispatch.C64_writable",
    "Emb.Dispatch.C64_other_extensions"
   ],
   "note": "All file names; str.lower is a parameter that lowers ASCII texts letter by letter. Formats are chosen by their primary extension; C64_other_extensions records that the further extensions listed for a format (u00, svgz, nc, ...) are refused."
  },
  {
   "property": "C65",
   "status": "proved",
   "theorems": [
    "Emb.Dispatch.C65_settings",
    "Emb.Dispatch.C65_no_pattern",
    "Emb.Dispatch.C65_encoder",
    "Emb.Dispatch.C65_format_settings",
    "Emb.Dispatch.C65_plain"
   ],
   "note": "Every dictionary, every writer module (attributes as an arbitrary partial function), dictionaries by address. C65_encoder: what the encoder takes from the dictionary. C65_format_settings ties the writer attributes of the formats to the encoder settings used by the other theorems."
  },
  {
   "property": "C66",
   "status": "partial",
   "theorems": [
    "Emb.U01.C66_u01",
    "Emb.Xxx.C66_xxx",
    "Emb.Tbf.C66_tbf_partial",
    "Emb.Tbf.C66_long_name"
   ],
   "note": "TBF: for names up to 16 and tp up to 32 ASCII characters, up to 201 threads, coordinates below 10^5; a longer name shifts the tables (witness proved)."
  },
  {
   "property": "C67",
   "status": "partial",
   "theorems": [
    "Emb.Ops.C67_keeps_partial",
    "Emb.Ops.C67_replaces_partial",
    "Emb.Ops.C67_actual",
    "Emb.Ops.C67_fails"
   ],
   "note": "Replacement and keeping of stitches and colour changes for every pattern; a frame-out at the end also deletes the END, and other commands within the sequence are lost (C67_fails)."
  },
  {
   "property": "C68",
   "status": "partial",
   "theorems": [
    "Emb.Pec.C68_layout_partial",
    "Emb.Pec.C68_name_shifts",
    "Emb.Pec.C68_too_many"
   ],
   "note": "For ASCII names and 1 to 255 colours; a non-ASCII name shifts the file (witness proved)."
  },
  {
   "property": "C69",
   "status": "proved",
   "theorems": [
    "Emb.C69_xxx",
    "Emb.C69_u01",
    "Emb.C69_jef",
    "Emb.C69_jef_hoop",
    "Emb.Dst.C69_dst"
   ],
   "note": "XXX, U01 and DST for whole positions that fit the fields; JEF for its size and hoop fields."
  },
  {
   "property": "C70",
   "status": "partial",
   "theorems": [
    "Emb.Csv.C70_roundtrip_partial",
    "Emb.Csv.C70_rows",
    "Emb.Csv.C70_thread_loses",
    "Emb.Csv.C70_quote_breaks",
    "Emb.Csv.C70_quote_shifts"
   ],
   "note": "Texts without quotation marks; printing and parsing of numbers is a parameter (Num.Sound). C70_rows gives every row of the file. Missing because false: details, weight and chart of threads are dropped, absent texts come back as \"None\", quotation marks break the fields."
  },
  {
   "property": "C71",
   "status": "partial",
   "theorems": [
    "Emb.Json.C71_roundtrip_partial",
    "Emb.Json.C71_elsewhere",
    "Emb.Json.C71_unnamed"
   ],
   "note": "For named commands; json.dump/json.load themselves are taken to return the written object. Commands without a name cannot be read back (C71_unnamed). C71_elsewhere (in CsvReadProps): objects from other programs."
  },
  {
   "property": "C72",
   "status": "proved",
   "theorems": [
    "Emb.Generic.C72_positions",
    "Emb.Generic.C72_framed"
   ],
   "note": "Every pattern, every choice of texts."
  },
  {
   "property": "C73",
   "status": "proved",
   "theorems": [
    "Emb.Png.C73_picture",
    "Emb.Png.C73_covered",
    "Emb.Png.C73_stitches",
    "Emb.Png.C73_wide_line",
    "Emb.Png.C73_rows",
    "Emb.Png.C73_header"
   ],
   "note": "Every pattern with at least one command, every background and thread colours that are bytes, plain or fancy lines, line width up to 3 as in the statement; C73_wide_line shows what goes wrong for wider lines. Fractions exact; guides not modelled; zlib as arbitrary functions."
  },
  {
   "property": "C74",
   "status": "partial",
   "theorems": [
    "Emb.C74_added_partial",
    "Emb.C74_moved",
    "Emb.C74_normalized",
    "Emb.C74_matrix_fails",
    "Emb.C74_break_fails"
   ],
   "note": "C74_added_partial: every pair of patterns, the first of which sews something, without ties, matrix commands, sequins and changes of the stitch length (Plain lists the commands left out); with a scale or a rotation: no rounding, nonzero scale factors, a first pattern whose last move is not a jump after a STITCH_BREAK. C74_moved: patterns that are only moved, with ties, sequins, rounding and errors. C74_normalized: patterns that are moved, scaled and turned, with ties and sequins, if the first pattern sews and does not jump afterwards. With matrix commands or such a jump in the first pattern the claim is false (C74_matrix_fails, C74_break_fails)."
  },
  {
   "property": "C75",
   "status": "proved",
   "theorems": [
    "Emb.Blocks.C75_singletons"
   ],
   "note": "Every thread list."
  },
  {
   "property": "C76",
   "status": "proved",
   "theorems": [
    "Emb.Compress.C76_expand",
    "Emb.Compress.C76_expand_exact",
    "Emb.Compress.C76_expand_prefix"
   ],
   "note": "Every sequence of blocks valid for the format: with an end mark (anything may follow), without one and without filling, and without one but with filling (then the result begins with the data, of which the readers take the number of stitches)."
  },
  {
   "property": "C77",
   "status": "proved",
   "theorems": [
    "Emb.Dst.C77_header",
    "Emb.Dst.C77_file",
    "Emb.Dst.C77_comma_fails"
   ],
   "note": "Header alone for every pattern with stitches; on whole files with the stitches of C06. Without a description or catalogue number the text None is read back. C77_comma_fails shows why commas are excluded."
  },
  {
   "property": "C78",
   "status": "partial",
   "theorems": [
    "Emb.Pec.C78_file_partial",
    "Emb.Pec.C78_roundtrip_partial",
    "Emb.Pec.C78_no_threads",
    "Emb.Pec.C78_no_stitches",
    "Emb.Pec.C78_accent_fails",
    "Emb.Pec.C78_palette",
    "Emb.Pec.C78_thumbnails"
   ],
   "note": "Stitches up to the strikes the format itself adds (C12). The second theorem needs something sewn between stops and colour changes and neighbouring threads of different colours (C49). False for a design without threads: 256 threads are read (C78_no_threads). The label is for eight ASCII characters. C78_palette: the palette has 64 different Brother threads, each with its number; C78_thumbnails: which pixels the pictures of the whole and of each colour have."
  },
  {
   "property": "C79",
   "status": "partial",
   "theorems": [
    "Emb.Pes.C79_version_1",
    "Emb.Pes.C79_version_6_partial",
    "Emb.Pes.C79_roundtrip_partial",
    "Emb.Pes.C79_accent_fails",
    "Emb.Pes.C79_accent_colour",
    "Emb.Pes.C79_jumps_only_fails",
    "Emb.Pes.C79_pec",
    "Emb.Pes.C79_addendum"
   ],
   "note": "Version 1 holds for every pattern. Version 6 is for ASCII texts of less than 256 characters: with other letters the file is read with a TypeError or with wrong colours (C79_accent_fails, C79_accent_colour). Empty texts come back as missing; details and weight of threads are not in the file. Joining of stops needs neighbouring threads of different colours (C49). Floats in the header as arbitrary four bytes. C79_pec: a file that begins with #PEC0001 is read as PEC; C79_addendum: the end of a version 6 file has the colour of every thread."
  },
  {
   "property": "C80",
   "status": "partial",
   "theorems": [
    "Emb.Pes.C80_blocks_partial",
    "Emb.Pes.C80_version_1_partial",
    "Emb.Pes.C80_version_6_partial",
    "Emb.Pes.C80_version_6_colour",
    "Emb.Pes.C80_adjacent_changes_fails"
   ],
   "note": "Two colour changes in a row (also a stop followed by a colour change) pass over one thread only, so the colours after them are wrong (C80_adjacent_changes_fails). Colours are numbers of the nearest palette colour in version 1, of a thread of the same colour in version 6. The matrix of floats in the block header is not interpreted."
  },
  {
   "property": "C81",
   "status": "partial",
   "theorems": [
    "Emb.Gcode.C81_read_partial",
    "Emb.Gcode.C81_kinds",
    "Emb.Gcode.C81_strikes",
    "Emb.Gcode.C81_places",
    "Emb.Gcode.C81_counts",
    "Emb.Gcode.C81_saved_partial",
    "Emb.Gcode.C81_speed_fails",
    "Emb.Gcode.C81_title_fails",
    "Emb.Gcode.C81_bracket_fails",
    "Emb.Gcode.C81_small_letters_fail"
   ],
   "note": "Jumps and trims are not in the file. A SLOW or FAST command ends the file (C81_speed_fails), since the writer does not know it and the encoder leaves it in. Texts with a closing bracket or line end are read as code, texts with the word Thread as threads (C81_bracket_fails, C81_title_fails). Numbers are exact rationals: float rounding and the sign of a negative zero are not modelled."
  },
  {
   "property": "C82",
   "status": "proved",
   "theorems": [
    "Emb.Svg.C82_paths",
    "Emb.Svg.C82_stitches",
    "Emb.Svg.C82_viewbox",
    "Emb.Svg.C82_saved",
    "Emb.Svg.C82_plain",
    "Emb.Svg.C82_empty",
    "Emb.Svg.C82_escape"
   ],
   "note": "Number printing is assumed to be readable again and free of blanks, commas and markup. xml.etree is modelled by its output. C82_saved: every source and setting; C82_plain: sources without ties, transformations and long-stitch cuts. An empty pattern has an infinite view box (C82_empty). C82_escape: any text of an attribute is read as the text it was."
  },
  {
   "property": "C83",
   "status": "partial",
   "theorems": [
    "Emb.Txt.C83_mimic",
    "Emb.Txt.C83_mimic_fails",
    "Emb.Txt.C83_normal_partial",
    "Emb.Txt.C83_whole",
    "Emb.Txt.C83_colour_fails",
    "Emb.Txt.C83_speed_fails"
   ],
   "note": "False for the colour of the normal form: color_index is never incremented, so every line shows the first thread (C83_colour_fails, and stated so in C83_normal_partial). The names are proved for low-level commands, which are all the encoder lets through (C21)."
  },
  {
   "property": "C84",
   "status": "partial",
   "theorems": [
    "Emb.Pmv.C84_roundtrip_partial",
    "Emb.Pmv.C84_trim_fails",
    "Emb.Pmv.C84_long_fails",
    "Emb.Pmv.C84_cut_short",
    "Emb.Pmv.C84_width",
    "Emb.Pmv.C84_length"
   ],
   "note": "Restricted to points that come first and to steps of at most 7.5 mm. Both restrictions are needed: a trim between the points makes a file that cannot be read (C84_trim_fails), and a jump of 10 mm comes back as one of 6 mm the other way (C84_long_fails). A file that ends early is read without END (C84_cut_short)."
  },
  {
   "property": "C85",
   "status": "proved",
   "theorems": [
    "Emb.Hus.C85_read",
    "Emb.Hus.C85_index_fails"
   ],
   "note": "Compressed forms are those of C76 (blocks with an end mark, or blocks that fill the data). A colour index beyond the table is an IndexError (C85_index_fails); other readers wrap."
  },
  {
   "property": "C86",
   "status": "partial",
   "theorems": [
    "Emb.Containers.C86_dst_partial",
    "Emb.Containers.C86_stx",
    "Emb.Containers.C86_phb",
    "Emb.Containers.C86_phb_saved",
    "Emb.Containers.C86_phc",
    "Emb.Containers.C86_phc_cut",
    "Emb.Containers.C86_cut"
   ],
   "note": "TAP and EXY: as far as C06 (stitches, ejections and colour changes; jumps and trims may differ). The others are complete. A PHC file that ends among its colours is read without END (C86_phc_cut)."
  },
  {
   "property": "C87",
   "status": "proved",
   "theorems": [
    "Emb.Shv.C87_read",
    "Emb.Shv.C87_overrun",
    "Emb.Shv.C87_no_colours_fails",
    "Emb.Shv.C87_empty_colour_fails",
    "Emb.Shv.C87_cut_fails"
   ],
   "note": "Proved for files in which every colour has stitches; C87_overrun is about files that go on after the last announced colour. Witnesses: a header without colours raises KeyError (the handler catches IndexError), a colour announcing no stitches still gets one, and a file cut inside a long move raises TypeError."
  },
  {
   "property": "C88",
   "status": "partial",
   "theorems": [
    "Emb.Records.C88_dsb",
    "Emb.Records.C88_dsz",
    "Emb.Records.C88_fxy",
    "Emb.Records.C88_gt",
    "Emb.Records.C88_new",
    "Emb.Records.C88_inb",
    "Emb.Records.C88_10o",
    "Emb.Records.C88_stc",
    "Emb.Records.C88_zxy",
    "Emb.Records.C88_sunstar",
    "Emb.Records.C88_barudan",
    "Emb.Records.C88_dat",
    "Emb.Records.C88_barudan_needle_fails",
    "Emb.Records.C88_emd",
    "Emb.Records.C88_100",
    "Emb.Records.C88_jpx_partial",
    "Emb.Records.C88_jpx_axis_fails",
    "Emb.Records.C88_sew",
    "Emb.Records.C88_bro",
    "Emb.Records.C88_spx",
    "Emb.Records.C88_mit",
    "Emb.Records.C88_mit_end_twice",
    "Emb.Records.C88_ksm",
    "Emb.Records.C88_zhs",
    "Emb.Records.C88_pcd",
    "Emb.Records.C88_pcm",
    "Emb.Records.C88_max"
   ],
   "note": "One theorem per format, against a specification of its records. Partial: a JPX colour change with a displacement along one axis only loses the displacement (C88_jpx_axis_fails), so JPX is proved for the others; a needle change in a Barudan DAT file raises AttributeError (C88_barudan_needle_fails)."
  },
  {
   "property": "C89",
   "status": "partial",
   "theorems": [
    "Emb.SmallFiles.C89_dsb",
    "Emb.SmallFiles.C89_dsz",
    "Emb.SmallFiles.C89_sew",
    "Emb.SmallFiles.C89_pcd",
    "Emb.SmallFiles.C89_pcm",
    "Emb.SmallFiles.C89_pcm_index_fails",
    "Emb.SmallFiles.C89_jpx_partial",
    "Emb.SmallFiles.C89_zhs",
    "Emb.SmallFiles.C89_zhs_catalog_fails"
   ],
   "note": "Partial: JPX inherits the lost displacement of C88_jpx_axis_fails, and ZHS drops a catalogue number of one character (C89_zhs_catalog_fails), so ZHS is proved for the others. A PCM colour number beyond 15 is an IndexError. DSB and DSZ are stated over any 512 bytes whose reading as a DST header is known; C77_header gives those."
  },
  {
   "property": "C90",
   "status": "proved",
   "theorems": [
    "Emb.Pes.C90_header",
    "Emb.Pes.C90_version_4",
    "Emb.Pes.C90_plain",
    "Emb.Pes.C90_chart",
    "Emb.Pes.C90_table",
    "Emb.Pes.C90_modulo",
    "Emb.Pes.C90_counts",
    "Emb.Pes.C90_texts"
   ],
   "note": "The header is one without programmable fills, motifs and feather patterns: the code returns no threads for the others. C90_header reduces a file to its PEC part read with the threads of the header; C90_chart and C90_table say what such reading gives. C90_modulo: a colour number beyond the table is taken modulo its length; C90_counts: the header has threads exactly if it counts no fills, motifs and feather patterns."
  },
  {
   "property": "C91",
   "status": "proved",
   "theorems": [
    "Emb.C91_shades",
    "Emb.C91_plain",
    "Emb.C91_blocks"
   ],
   "note": "C91_shades: every source and setting. C91_plain and C91_blocks: settings without ties and cuts, sources without matrix commands and sequins."
  },
  {
   "property": "C92",
   "status": "proved",
   "theorems": [
    "Emb.Enter.C92_points",
    "Emb.Enter.C92_commands",
    "Emb.Enter.C92_odd",
    "Emb.Enter.C92_short",
    "Emb.Enter.C92_empty",
    "Emb.Enter.C92_block",
    "Emb.Enter.C92_block_empty",
    "Emb.Enter.C92_thread",
    "Emb.Enter.C92_command",
    "Emb.Enter.C92_jobs",
    "Emb.Enter.C92_match",
    "Emb.C92_sewn"
   ],
   "note": "Lists whose elements are of one kind; the code looks at the type of the first element only and mixed lists are not modelled."
  },
  {
   "property": "C93",
   "status": "proved",
   "theorems": [
    "Emb.C93_equal",
    "Emb.C93_hash",
    "Emb.C93_int",
    "Emb.C93_int_fails",
    "Emb.C93_str",
    "Emb.C93_unique",
    "Emb.C93_set_order",
    "Emb.C93_dict",
    "Emb.C93_dict_total",
    "Emb.C93_set",
    "Emb.C93_name",
    "Emb.C93_no_name",
    "Emb.C93_opaque",
    "Emb.C93_pattern",
    "Emb.C93_copy",
    "Emb.C93_values"
   ],
   "note": "C93_int_fails: across types == is not transitive and a number beyond 24 bits can equal a thread with another hash. A dict's colour value of another type is ignored, as in the code. What an exception inside set leaves in the thread is not modelled. C93_values: what a colour value of each type sets."
  },
  {
   "property": "C94",
   "status": "partial",
   "theorems": [
    "Emb.C94_written",
    "Emb.C94_exact",
    "Emb.C94_exp",
    "Emb.C94_dst",
    "Emb.C94_jef_partial",
    "Emb.C94_xxx_partial",
    "Emb.C94_vp3_partial",
    "Emb.C94_vp3_near",
    "Emb.C94_vp3_points",
    "Emb.C94_kept",
    "Emb.C94_pec_partial",
    "Emb.C94_pes_partial"
   ],
   "note": "Under the hypotheses of the round trips of C06, C08, C09, C15, C16, C78 and C79, whose notes show what fails without them. VP3 also for positions with fractions, from conditions on the source alone except that no colour changes on an axis (C94_vp3_near, C94_vp3_points: less than 0.3 mm off). For PEC and PES only that no strike is lost or recoloured: C12_extra_strike shows the further ones. STOP is excluded where the reader takes it for a colour change."
  },
  {
   "property": "C95",
   "status": "partial",
   "theorems": [
    "Emb.C95_needles",
    "Emb.C95_plain",
    "Emb.C95_in_turn_partial",
    "Emb.C95_u01_partial",
    "Emb.C95_tbf_partial"
   ],
   "note": "C95_needles and C95_plain hold for every source. A TIE_ON asked for before the first stitch is sewn before any needle is set (example beside C95_needles). Needles in turn: at most 254 change commands, as in C31. Files: conditions of C13 and C14."
  },
  {
   "property": "C96",
   "status": "proved",
   "theorems": [
    "Emb.Gcode.C96_program",
    "Emb.Gcode.C96_feed_move_fails"
   ],
   "note": "Words in capital letters, separated by single spaces, one instruction per line, with slashes and blanks before it if wanted; remarks without a closing bracket and without the word Thread (for those see C81). Witness: a G1 without both coordinates (lowering the needle with feed) raises a KeyError wherever it stands, since `and` binds before `or` in the condition."
  },
  {
   "property": "C97",
   "status": "proved",
   "theorems": [
    "Emb.C97_gap_fits",
    "Emb.C97_gap_near",
    "Emb.C97_lock_fits",
    "Emb.C97_no_drift",
    "Emb.C97_whole"
   ],
   "note": "The rounding modelled is to 53 bits, ties to even, with unbounded exponent (no overflow, no subnormal numbers, which these magnitudes exclude). The gap division, tie stitches and the writers' displacement loop are modelled again in floating point; for tie stitches the anchor is assumed no further than twice the limit on each axis, which covers any error of the trigonometric functions."
  },
  {
   "property": "C98",
   "status": "partial",
   "theorems": [
    "Emb.C98_no_loss_partial",
    "Emb.C98_goes_on",
    "Emb.C98_goes_on_jef",
    "Emb.C98_goes_on_xxx",
    "Emb.C98_exp_file",
    "Emb.C98_leading_exp",
    "Emb.C98_leading_change"
   ],
   "note": "C98_no_loss_partial is the whole claim under the supposition of the statement, with JEF where something is sewn and XXX where no stitch is exactly 124 units long (C15). C98_goes_on, C98_goes_on_jef and C98_goes_on_xxx show that saving and loading succeeds each time. C98_exp_file shows that every file read as EXP gives such a design. Without the supposition it is false (C98_leading_change); C98_leading_exp says what happens then through EXP."
  },
  {
   "property": "C99",
   "status": "partial",
   "theorems": [
    "Emb.Readers.C99_ksm",
    "Emb.Readers.C99_dsb",
    "Emb.Readers.C99_dsz",
    "Emb.Readers.C99_fxy",
    "Emb.Readers.C99_gt",
    "Emb.Readers.C99_new",
    "Emb.Readers.C99_inb",
    "Emb.Readers.C99_10o",
    "Emb.Readers.C99_stc",
    "Emb.Readers.C99_sunstar",
    "Emb.Readers.C99_emd",
    "Emb.Readers.C99_100",
    "Emb.Readers.C99_mit",
    "Emb.Readers.C99_jpx",
    "Emb.Readers.C99_sew",
    "Emb.Readers.C99_zhs",
    "Emb.Readers.C99_pcd",
    "Emb.Readers.C99_pcm",
    "Emb.Readers.C99_exp",
    "Emb.Readers.C99_u01",
    "Emb.Readers.C99_dst",
    "Emb.Readers.C99_pec",
    "Emb.Readers.C99_tbf",
    "Emb.Readers.C99_jef",
    "Emb.Readers.C99_pec_part",
    "Emb.Readers.C99_pec_file",
    "Emb.Readers.C99_bro_partial",
    "Emb.Readers.C99_zxy_partial",
    "Emb.Readers.C99_max_partial",
    "Emb.Readers.C99_dat_partial",
    "Emb.Readers.C99_spx_partial",
    "Emb.Readers.C99_xxx_partial",
    "Emb.Readers.C99_xxx_fails"
   ],
   "note": "For the readers whose files are always read the whole claim; the others have the suffix _partial: what is read is the beginning, but a cut file may be refused (BRO, see C60_bro_cut_off; XXX without its end record, C99_xxx_fails). For DST and JEF the jumps are left out, since a cut may fall within the jumps that mean a trim. TBF, JEF and whole PEC files are cut after their tables, which are not stitches. SPX patterns have no END."
  },
  {
   "property": "C100",
   "status": "partial",
   "theorems": [
    "Emb.Readers.C100_ksm",
    "Emb.Readers.C100_dsb",
    "Emb.Readers.C100_dsz",
    "Emb.Readers.C100_fxy",
    "Emb.Readers.C100_gt",
    "Emb.Readers.C100_new",
    "Emb.Readers.C100_inb",
    "Emb.Readers.C100_10o",
    "Emb.Readers.C100_stc",
    "Emb.Readers.C100_zhs",
    "Emb.Readers.C100_sunstar",
    "Emb.Readers.C100_pcd",
    "Emb.Readers.C100_pcm",
    "Emb.Readers.C100_max",
    "Emb.Readers.C100_jpx",
    "Emb.Readers.C100_sew",
    "Emb.Readers.C100_emd",
    "Emb.Readers.C100_bro",
    "Emb.Readers.C100_dst",
    "Emb.Readers.C100_u01_partial",
    "Emb.Readers.C100_u01_empty",
    "Emb.Readers.C100_tbf",
    "Emb.Readers.C100_jef",
    "Emb.Readers.C100_xxx",
    "Emb.Readers.C100_pec",
    "Emb.Readers.C100_exp_fails",
    "Emb.Readers.C100_pec_part",
    "Emb.Readers.C100_pec_file",
    "Emb.Readers.C100_pes",
    "Emb.Vp3.C100_vp3",
    "Emb.Hus.C100_hus"
   ],
   "note": "The whole claim for the formats listed. EXP has no end mark, so it is false there (C100_exp_fails), and a U01 file without stitches has none either (C100_u01_empty). For PEC and PES files everything but the thumbnails, which come after the stitches, is the same."
  },
  {
   "property": "C101",
   "status": "partial",
   "theorems": [
    "Emb.Generic.C101_text_partial",
    "Emb.Generic.C101_fill",
    "Emb.Generic.C101_sum",
    "Emb.Generic.C101_colour_fails",
    "Emb.Generic.C101_colour_missing",
    "Emb.Generic.C101_hidden"
   ],
   "note": "Everything but the last sentence, which is false: the fields of threads are only set while the threads are listed, so every colour is announced with the last thread, or not at all (C101_colour_fails, C101_colour_missing). Metadata under a name the writer uses itself is hidden (C101_hidden). Keys of tables are filled before the positions are updated. How values are printed is a parameter; attribute and index access in fields is not modelled."
  },
  {
   "property": "C102",
   "status": "partial",
   "theorems": [
    "Emb.Png.C102_guides_partial",
    "Emb.Png.C102_whole",
    "Emb.Png.C102_room",
    "Emb.Png.C102_position",
    "Emb.Png.C102_thin_fails"
   ],
   "note": "Proved where the texts have room, in particular for all designs of at least 4.1 mm in both directions within one metre of the origin (C102_room). The last sentence is false: for every design of less than 1.2 mm in height the writer raises IndexError (C102_thin_fails). If the least coordinate is no integer a mark can be one pixel too far (C102_position)."
  },
  {
   "property": "C103",
   "status": "partial",
   "theorems": [
    "Emb.C103_normalized",
    "Emb.C103_exp",
    "Emb.C103_dst",
    "Emb.C103_xxx",
    "Emb.C103_vp3",
    "Emb.C103_pmv",
    "Emb.C103_colours",
    "Emb.C103_jef_partial",
    "Emb.C103_u01_partial",
    "Emb.C103_tbf_partial",
    "Emb.C103_pec_partial",
    "Emb.C103_pes_partial",
    "Emb.C103_limit_fails",
    "Emb.C103_jef_fails",
    "Emb.C103_pec_fails",
    "Emb.C103_pes_fails",
    "Emb.C103_tbf_fails"
   ],
   "note": "Full for EXP, XXX, VP3, PMV, EDR, INF and (if sequin mode and limits are not changed within the design, libm sound) DST. False in general: a limit of 0 set within the design (C103_limit_fails); JEF of a design in which nothing is sewn (C103_jef_fails); PEC and PES with more than 255 threads (C103_pec_fails); PES version 6 of a design with moves but no thread (C103_pes_fails); TBF with more than 256 needle changes (C103_tbf_fails). Proved for the rest; U01 and TBF for designs with at most 254 changes."
  },
  {
   "property": "C104",
   "status": "proved",
   "theorems": [
    "Emb.C104_design",
    "Emb.C104_settings",
    "Emb.C104_scale",
    "Emb.C104_rotate"
   ],
   "note": "C104_design: the design itself is mirrored or turned. C104_settings, C104_scale, C104_rotate: the settings ask for it. Lock stitches under the supposition that the C functions treat the directions alike; cos and sin of a quarter turn are supposed exact."
  },
  {
   "property": "C105",
   "status": "partial",
   "theorems": [
    "Emb.C105_design_partial",
    "Emb.C105_translate_partial",
    "Emb.C105_odd_fails"
   ],
   "note": "Proved for any distance if the encoder does not round, and for even distances if it rounds. False for odd distances with rounding, since exact halves are rounded to even numbers (C105_odd_fails). Lock stitches under the supposition that the C functions do the same everywhere."
  },
  {
   "property": "C106",
   "status": "partial",
   "theorems": [
    "Emb.Size.C106_jef",
    "Emb.Size.C106_xxx",
    "Emb.Size.C106_tbf",
    "Emb.Size.C106_shv",
    "Emb.Size.C106_vp3",
    "Emb.Size.C106_pec",
    "Emb.Size.C106_pes",
    "Emb.Size.C106_phb",
    "Emb.Size.C106_phc",
    "Emb.Size.C106_stx",
    "Emb.Size.C106_dst",
    "Emb.Size.C106_tap",
    "Emb.Size.C106_dsb",
    "Emb.Size.C106_sew",
    "Emb.Size.C106_jpx",
    "Emb.Size.C106_pcd",
    "Emb.Size.C106_pcm",
    "Emb.Size.C106_zhs_partial",
    "Emb.Size.C106_zhs_fails",
    "Emb.Size.C106_hus_partial",
    "Emb.Size.C106_hus_refused",
    "Emb.Size.C106_expand_refused",
    "Emb.Size.C106_hus_fails"
   ],
   "note": "Proved for JEF, XXX, TBF, SHV, VP3, PEC, PES, PHB, STX, DST, TAP, EXY, DSB, DSZ, SEW, JPX, PCD, PCQ, PCS; also for PHC and PCM except that a file cut off within the colours is read as a pattern without any command. False for the threads of ZHS, which are not checked (up to 255), and for HUS, which is compressed; there at most twice the announced number of commands and 516 more (C106_hus_partial), and the exceptions are TypeError, IndexError and ValueError (C106_hus_refused)."
  },
  {
   "property": "C107",
   "status": "partial",
   "theorems": [
    "Emb.C107_flat_partial",
    "Emb.C107_needle_partial",
    "Emb.C107_transform",
    "Emb.C107_lengths_fails",
    "Emb.C107_wrap_fails"
   ],
   "note": "C107_flat_partial: every design whose last command is not sewn (an END follows) or that has no matrix commands, with the errors; false without that condition, since a TIE_OFF that comes first looks at the last command by index -1 (C107_wrap_fails). C107_needle_partial: also MATRIX_SCALE and MATRIX_ROTATE, which depend on where the needle is, for every design that is normalized without an error. False for transform on a design with commands that carry a length, which transform scales too (C107_lengths_fails)."
  },
  {
   "property": "C108",
   "status": "partial",
   "theorems": [
    "Emb.C108_readable",
    "Emb.C108_readable_fine",
    "Emb.C108_readable_more",
    "Emb.C108_file",
    "Emb.C108_converted_partial",
    "Emb.C108_first_partial",
    "Emb.C108_colours_partial",
    "Emb.C108_goes_on",
    "Emb.C108_more_partial",
    "Emb.C108_goes_on_u01",
    "Emb.C108_vp3",
    "Emb.C108_other_units"
   ],
   "note": "Proved for the readers of KSM, FXY, GT, NEW, ZXY, INB, 10O, STC, DAT, EMD, 100, BRO, DSB, DSZ, SEW, ZHS, JPX, EXP, STX, U01, PEC, PES, PHB, TBF, XXX, JEF, SHV, HUS, PHC, and DST, TAP, EXY without sequins (with sequins see C129) (PCD, PCM, MAX, VP3: nearest points). EXP as the target without conditions (C108_file). Conditions of the others: DST no FAST or SLOW; JEF no colour change first; XXX no stitch of exactly 124 units (C15). U01, TBF and VP3 under the conditions of C13, C14 and C16 (C108_more_partial); VP3 for any positions with every stitch less than 0.3 mm off (C108_vp3: no FAST or SLOW, within 1.6 m, no colour change on an axis); PEC and PES add strikes (C12_extra_strike). With stops only the points are compared; of colour changes before the first stitch one is lost (C98_leading_change). Not exact for other units (C108_other_units)."
  },
  {
   "property": "C109",
   "status": "partial",
   "theorems": [
    "Emb.C109_speeds",
    "Emb.C109_ties",
    "Emb.C109_full_jump_partial",
    "Emb.C109_explicit_trim_partial",
    "Emb.C109_needles",
    "Emb.C109_threads",
    "Emb.C109_mode",
    "Emb.With.spec",
    "Emb.C109_not_explicit_trim",
    "Emb.C109_not_full_jump"
   ],
   "note": "Speeds, ties, needles, threads and mode hold without conditions on the design (needle counts above one). Full jumps and explicit trims: false in the code with used sequins (C109_not_full_jump) or colour breaks (C109_not_explicit_trim), proved without them."
  },
  {
   "property": "C110",
   "status": "partial",
   "theorems": [
    "Emb.C110_appended_partial",
    "Emb.C110_refused",
    "Emb.C110_not_breaks",
    "Emb.C110_not_first",
    "Emb.C110_not_sequence"
   ],
   "note": "Proved under the conditions named in the quantifier, which say that the code does not look beyond the end of the shorter design. Without them the claim is false (C110_not_breaks, C110_not_first, C110_not_sequence). C110_refused for a needle count other than zero."
  },
  {
   "property": "C111",
   "status": "proved",
   "theorems": [
    "Emb.C111_units",
    "Emb.C111_not_round"
   ],
   "note": "For all settings without rounding; rounding to whole units depends on the unit (C111_not_round). Exact arithmetic in place of floats."
  },
  {
   "property": "C112",
   "status": "partial",
   "theorems": [
    "Emb.Ct0.C112_layout_partial",
    "Emb.Ct0.C112_agree_partial",
    "Emb.Ct0.C112_overrun",
    "Emb.Ct0.C112_half",
    "Emb.Ct0.C112_without_needle"
   ],
   "note": "Up to 255 needle changes. Fails from 256 on: the needles run over the next field (C112_overrun), and from 257 on the CT0 file is written and the TBF file is refused (C112_half). A change without a needle is a TypeError (C112_without_needle)."
  },
  {
   "property": "C113",
   "status": "partial",
   "theorems": [
    "Emb.C113_stitches",
    "Emb.C113_dst",
    "Emb.C113_jef",
    "Emb.C113_xxx",
    "Emb.C113_vp3",
    "Emb.C113_tbf",
    "Emb.C113_pec",
    "Emb.C113_pes",
    "Emb.C113_colours",
    "Emb.C113_svg",
    "Emb.C113_png",
    "Emb.C113_listed_partial",
    "Emb.C113_normalized",
    "Emb.C113_encoded",
    "Emb.C113_txt_fails",
    "Emb.C113_order_fails"
   ],
   "note": "Proved for EXP, U01, PMV, CT0, DST, JEF, XXX, VP3, TBF, PEC, PES, EDR, COL, INF, SVG and PNG, directly and after encoding (C113_encoded). False for TXT, which prints all bits of a colour (C113_txt_fails), and for CSV, G-code and JSON if the metadata was entered in another order (C113_order_fails); with the same order they are the same (C113_listed_partial). The iteration order of Python's sets is any function that sees no more of a thread than == does."
  },
  {
   "property": "C114",
   "status": "partial",
   "theorems": [
    "Emb.Files.C114_refused",
    "Emb.Files.C114_normalize",
    "Emb.Files.C114_none",
    "Emb.Files.C114_saved",
    "Emb.Files.C114_only",
    "Emb.Files.C114_reopened",
    "Emb.Files.C114_missing",
    "Emb.Files.C114_convert",
    "Emb.Files.C114_convert_refused",
    "Emb.Files.C114_lost",
    "Emb.Files.C114_fails",
    "Emb.Files.C114_unopened",
    "Emb.Files.C114_same_name"
   ],
   "note": "Everything but the last sentence is proved for arbitrary readers, writers and normalizations. The last sentence is false: the file is emptied before the writer runs, so an exception of the writer loses what stood there (C114_lost; with the DST writer, C114_fails). Files are identified with their names; text mode (translation of line ends and encodings) is part of `read` and `write`."
  },
  {
   "property": "C115",
   "status": "proved",
   "theorems": [
    "Emb.C115_score",
    "Emb.C115_pace",
    "Emb.C115_between",
    "Emb.C115_stop_mode"
   ],
   "note": "C115_score gives the whole score for every source; C115_pace and C115_between are its consequences for stops and speeds. C115_stop_mode shows why STOP as the thread change command is set apart in these two."
  },
  {
   "property": "C116",
   "status": "proved",
   "theorems": [
    "Emb.Growth.C116_length",
    "Emb.Growth.C116_unlimited"
   ],
   "note": "Commands that set a length limit within the design are included: their limit must not be below the shortest one (an example beside the theorem shows why). Matrix commands are left out as the quantifier says, since they change where the design lies."
  },
  {
   "property": "C117",
   "status": "proved",
   "theorems": [
    "Emb.Vp3.Tree.C117_tree",
    "Emb.Vp3.Tree.C117_text_fails"
   ],
   "note": "parse is a description of the format of its own that follows the distances. C117_text_fails shows why ASCII texts are asked for: the lengths of texts count characters."
  },
  {
   "property": "C118",
   "status": "proved",
   "theorems": [
    "Emb.Pec.C118_threads"
   ],
   "note": "The threads before neighbouring equal ones are joined into stops (C49)."
  },
  {
   "property": "C119",
   "status": "proved",
   "theorems": [
    "Emb.Hoop.C119_hull",
    "Emb.Hoop.C119_locked",
    "Emb.Hoop.C119_hoop",
    "Emb.Hoop.C119_matrix",
    "Emb.Hoop.C119_negative_fails"
   ],
   "note": "The stitches of a TIE_ON or TIE_OFF command may reach to the start (C119_locked says so). C119_negative_fails: why limits must not be negative with lock stitches."
  },
  {
   "property": "C120",
   "status": "proved",
   "theorems": [
    "Emb.Csv.Table.C120_table",
    "Emb.Csv.Table.C120_read",
    "Emb.Csv.Table.C120_unknown"
   ],
   "note": "Python's csv.reader is modelled from the standard library; float is a parameter."
  },
  {
   "property": "C121",
   "status": "partial",
   "theorems": [
    "Emb.C121_after_end_partial",
    "Emb.C121_plain_partial",
    "Emb.C121_sequence_fails",
    "Emb.C121_tie_off_fails",
    "Emb.C121_flags_fails"
   ],
   "note": "Proved for designs without SET_CHANGE_SEQUENCE whose first command is not a TIE_OFF and whose END carries no flags (or that have no colour breaks). Missing because false: a SET_CHANGE_SEQUENCE behind the END changes the threads before it (C121_sequence_fails), a leading TIE_OFF is sewn towards the very last command (C121_tie_off_fails), a colour break looks beyond an END with flags (C121_flags_fails)."
  },
  {
   "property": "C122",
   "status": "proved",
   "theorems": [
    "Emb.C122_exp",
    "Emb.C122_readers",
    "Emb.C122_not_sewn",
    "Emb.C122_second_lost"
   ],
   "note": "C122_not_sewn is for patterns as the readers make them (Shaped, see C108) and any added commands without SET_CHANGE_SEQUENCE; C122_second_lost is the case of two EXP files."
  },
  {
   "property": "C123",
   "status": "proved",
   "theorems": [
    "Emb.C123_asked",
    "Emb.C123_words",
    "Emb.Exp.C123_exp",
    "Emb.Xxx.C123_xxx",
    "Emb.C123_not_stitches",
    "Emb.C123_not_no_needles"
   ],
   "note": "SET_CHANGE_SEQUENCE keeps its order number in both designs (the order decides where a change stands). As many threads are named if the thread lists are as long or the changes are not needle changes. C123_exp, C123_xxx: so they make the same EXP and XXX files. C123_not_stitches, C123_not_no_needles: why the words of other commands and a needle count of 0 are left out."
  },
  {
   "property": "C124",
   "status": "partial",
   "theorems": [
    "Emb.Exp.C124_exp_partial",
    "Emb.Exp.C124_converted_partial",
    "Emb.Exp.C124_not_stops",
    "Emb.Exp.C124_not_leading"
   ],
   "note": "Proved for designs without stops, lock stitches switched on by the design, changes of limits and requests to use sequins, and with at most one change before anything is sewn; fractions, splits, trims, speeds, sequins sewn as jumps or stitches, all thread and needle requests, matrix commands, frames and jumps are included. C124_converted_partial: for files of any of the formats of C108, converted to EXP. Missing because false: stops (C124_not_stops) and two leading changes (C124_not_leading). EXP holds no sequins. XXX: C135."
  },
  {
   "property": "C125",
   "status": "proved",
   "theorems": [
    "Emb.Elsewhere.C125_exp",
    "Emb.Elsewhere.C125_u01",
    "Emb.Elsewhere.C125_pec",
    "Emb.Elsewhere.C125_xxx",
    "Emb.Elsewhere.C125_tbf",
    "Emb.Elsewhere.C125_jef",
    "Emb.Elsewhere.C125_jef_short",
    "Emb.Elsewhere.C125_dst"
   ],
   "note": "One theorem per format, against a specification of its records (RecordProps: Ev and drawn for the commands). JEF and DST: before trims are inferred from jumps, which C50 describes. TBF: at most as many needle changes as the header lists (256), needles up to 254 (C01)."
  },
  {
   "property": "C126",
   "status": "partial",
   "theorems": [
    "Emb.Vp3.Elsewhere.C126_partial",
    "Emb.Vp3.Elsewhere.C126_read",
    "Emb.Vp3.Elsewhere.C126_axis_fails"
   ],
   "note": "The full claim is false: a block that starts on one of the axes has no jump, its stitches continue from the end of the block before (`!= 0 and ... != 0`, witness C126_axis_fails). C126_partial is the full claim when no start is on an axis; C126_read says exactly what every such file is read as."
  },
  {
   "property": "C127",
   "status": "proved",
   "theorems": [
    "Emb.C127_edr",
    "Emb.C127_inf",
    "Emb.C127_col",
    "Emb.C127_pmv"
   ],
   "note": "Numbers in COL files as decimal digits with a sign if negative. INF files here count bytes in the length of a record, unlike those of the library's writer with texts that are not ASCII (C59_inf_non_ascii)."
  },
  {
   "property": "C128",
   "status": "proved",
   "theorems": [
    "Emb.Extras.C128_entered",
    "Emb.Extras.C128_item",
    "Emb.Extras.C128_derived",
    "Emb.Extras.C128_normalized",
    "Emb.Extras.C128_added",
    "Emb.Extras.C128_clear",
    "Emb.Extras.C128_str"
   ],
   "note": "Dictionaries are lists in insertion order with every key once (IsDict, kept by all operations). C128_str: the text of a pattern shows its name."
  },
  {
   "property": "C129",
   "status": "proved",
   "theorems": [
    "Emb.C129_sequins",
    "Emb.C129_exact",
    "Emb.C129_held",
    "Emb.C129_dst",
    "Emb.C129_exp",
    "Emb.C129_jef",
    "Emb.C129_xxx",
    "Emb.C129_u01",
    "Emb.C129_tbf",
    "Emb.C129_vp3",
    "Emb.C129_loaded",
    "Emb.C129_loose"
   ],
   "note": "DST without FAST and SLOW (see C06), JEF without a colour change first (see C09), XXX, U01, TBF and VP3 under the conditions of C15, C13, C14 and C16. C129_loose: without the thread a stitch is added, as C24 says."
  },
  {
   "property": "C130",
   "status": "proved",
   "theorems": [
    "Emb.C130_run",
    "Emb.C130_jef",
    "Emb.C130_dst",
    "Emb.C130_same"
   ],
   "note": "Runs of jumps between two of stitch, sequin, trim, colour change and needle change; other commands among the jumps and runs that come back: see C50_exact, which covers every list."
  },
  {
   "property": "C131",
   "status": "partial",
   "theorems": [
    "Emb.C131_thread",
    "Emb.C131_jef_partial",
    "Emb.C131_dst_partial",
    "Emb.C131_lost",
    "Emb.C131_speed_fails"
   ],
   "note": "JEF: without sequins in use, without commands that change the length limits, no colour change in front of the design (C09). DST: with sequins (the trim is at the stitch or sequin before it); without FAST and SLOW, which become stitches (C131_speed_fails), and commands that change the length limits. C131_lost is the witness for the last sentence."
  },
  {
   "property": "C132",
   "status": "proved",
   "theorems": [
    "Emb.C132_dst_choice",
    "Emb.C132_dst",
    "Emb.C132_csv_choice",
    "Emb.C132_csv",
    "Emb.C132_txt_choice",
    "Emb.C132_pes_choice",
    "Emb.C132_pes_other",
    "Emb.C132_pes",
    "Emb.C132_jef_choice"
   ],
   "note": "Within the conditions of C70 (texts of CSV), C79 (texts and counts of PES) and of headers that fit into 512 bytes (DST). float on texts is arbitrary."
  },
  {
   "property": "C133",
   "status": "partial",
   "theorems": [
    "Emb.C133_jef",
    "Emb.C133_xxx",
    "Emb.C133_dst",
    "Emb.C133_dst_count_partial",
    "Emb.C133_dst_not_count",
    "Emb.C133_u01"
   ],
   "note": "JEF, XXX, U01 and the size of DST in full. The claim on ST is false of the code: ST counts the commands and not the jumps of a trim, so a design with a trim has more records than ST says (C133_dst_not_count)."
  },
  {
   "property": "C134",
   "status": "partial",
   "theorems": [
    "Emb.C134_moved",
    "Emb.C134_amount_partial",
    "Emb.C134_not_amount",
    "Emb.C134_not_relative"
   ],
   "note": "False of the code in general: the amount is added to the position entered last (C134_not_amount), and displacements entered afterwards count from there (C134_not_relative). C134_moved says what is done for every position; C134_amount_partial is the claim where the position entered last is the origin and points are entered absolutely. Designs without other matrix commands and commands that carry lengths, whose last command is not sewn."
  },
  {
   "property": "C135",
   "status": "partial",
   "theorems": [
    "Emb.Xxx.C135_xxx_partial",
    "Emb.Xxx.C135_not_speed",
    "Emb.Xxx.C135_not_limit",
    "Emb.Xxx.C135_not_outline",
    "Emb.Exp.C124_not_stops",
    "Emb.Exp.C124_not_leading"
   ],
   "note": "Proved under the conditions of C124, without changes of the speed, without stitches of exactly 124 units, and if outline and end of the normalized design are on the grid; other positions may have fractions. Each condition is needed: C135_not_speed, C135_not_limit, C135_not_outline."
  },
  {
   "property": "C136",
   "status": "proved",
   "theorems": [
    "Emb.Listing.C136_listed",
    "Emb.Listing.C136_restored",
    "Emb.Listing.C136_counts"
   ],
   "note": "Words with a byte of 0 in a field stand for an absent value, so four-byte words are restored exactly."
  }
 ]
}