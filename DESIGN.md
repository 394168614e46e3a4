# Formal model of pyembroidery: design

Source: `/repo/pyembroidery` (read as text, never run). Model and proofs: Lean 4.33 with Mathlib, `/verif/lean/Verif`.
The properties are in `properties.jsonl`, the theorems for each in `MANIFEST.json`.

## 1. Layout

| module | models |
|---|---|
| `Py`, `Bytes`, `Text`, `Decimal` | Python primitives: exceptions as values, `round` (half to even), masks, slices; `ReadHelper.py`, `WriteHelper.py`; UTF-8, lines, `strip`, `split`, text mode; decimal printing and `int()` |
| `Const`, `Names` | `EmbConstant.py`, `EmbFunctions.py` (command words and their names) |
| `Stitch`, `Pattern`, `Trims`, `Blocks`, `Ops` | `EmbPattern.py`: stitch entry, bounds, counts, centring; `interpolate_trims`; command/colour/stitch blocks, `fix_color_count`, merge/interpolate/stable patterns, singleton thread list; stop/duplicate-colour conversion, frame eject, `add_pattern` |
| `Heap` | `EmbPattern.py` again, with stitches as shared mutable cells: copies, `+`, `+=`, in-place transformations, what saving does to the pattern |
| `Matrix` | `EmbMatrix.py` |
| `Thread`, `ColorNames` | `EmbThread.py`: colours, distance, palettes, hex notation, colour names |
| `Encoder` | `EmbEncoder.py` (whole Transcoder). `EncoderLemmas`, `EncoderChain`, `EncoderInv`, `EncoderTotal`, `PlanLemmas`, `Walk`, `Idempotent*` are lemmas about it |
| `Dispatch` | `EmbPattern.py` 878-1740: format table, choice by extension, settings handed to the encoder; the module attributes of the writers |
| `Quant` | the accumulate-and-round loop shared by the writers |
| `Format` | what the format theorems share (encoding followed by writing) |
| `Dst`, `DstHeader`, `DstRead` | `DstWriter.py`, `DstReader.py` |
| `Exp`, `Jef`, `Pec`, `U01`, `Tbf`, `Xxx`, `Vp3` | the writers and readers of these formats (`JefWriter` with `EmbThreadJef`, `PecWriter`/`PecReader` with `EmbThreadPec`) |
| `PecGraphics`, `Png` | `PecGraphics.py`; `PngWriter.py` without guides |
| `Generic` | `GenericWriter.py` |
| `Csv`, `Json`, `ColorFiles` | CSV, JSON, EDR, COL and INF |
| `Compress` | `EmbCompress.py` |
| `Readers` | stitch parts of the small readers (list in section 5) |
| `PecFile` | `PecWriter.py`, `PecReader.py` as whole files: `EmbThreadPec.py`, thumbnails, stop conversion, palette lookup |
| `Pes` | `PesWriter.py`, `PesReader.py` as whole files, versions 1 and 6, truncated and not |
| `Gcode` | `GcodeWriter.py`, `GcodeReader.py` |
| `Svg` | `SvgWriter.py` with the output of `xml.etree` |
| `Txt` | `TxtWriter.py` |
| `Pmv` | `PmvWriter.py`, `PmvReader.py` |
| `Palettes` | `EmbThreadHus.py`, `EmbThreadSew.py`, `EmbThreadShv.py` |
| `Hus` | `HusReader.py` |
| `Containers` | `TapReader.py`, `ExyReader.py`, `StxReader.py`, `PhbReader.py`, `PhcReader.py` |
| `Shv`, `Palettes` | `ShvReader.py`, `EmbThreadShv.py` |
| `Props/RecordProps`, `RecordProps2`, `RecordProps3` | the records of the small stitch formats, specified one by one (C88) |
| `SmallFiles`, `Palettes` | headers of `DsbReader.py`, `DszReader.py`, `SewReader.py`, `PcdReader.py`, `PcqReader.py`, `PcsReader.py`, `PcmReader.py`, `JpxReader.py`, `ZhsReader.py` |
| `Pes`, `PecFile` (`mapColors`, `tableLoop`) | headers of PES versions 1 to 10, choice of threads |
| `Enter` | `EmbPattern.py`: `+=` and `add_block` for lists of points, threads and commands |
| `ThreadSet` | `EmbThread.py`: `==`, hash, `set`; `EmbPattern.py`: `==`, `get_unique_threadlist` |
| `Float` | rounding to 53 bits; gap division, tie stitches and displacement loop in floating point |
| `Props/PesDetailProps` | Thread tables, thumbnails and the end of PES files (C78, C79, C90) |
| `Props/CutProps`, `Props/CutFileProps` | Files that were cut off (C99); what reading duplicate colours as stops leaves alone (C49) |
| `Props/EndProps`, `Props/EndFileProps` | What follows the end mark (C100) |
| `GenericText`, `Props/GenericTextProps` | The texts of the generic writer filled in (C101) |
| `PngGuides`, `Props/PngGuidesProps` | The ruler of PNG pictures (C102) |
| `Props/EndPecProps` | What follows the end of the stitches of PEC and PES files (C100) |
| `Props/SavedProps` | Any design can be saved, and the file consists of bytes (C103) |
| `Props/IdempotentNeedleProps` | Normalizing twice for formats that select needles (C33) |
| `Props/ResaveMoreProps` | Saving again succeeds in JEF and XXX (C98) |
| `Props/MirrorProps` | Mirrored and turned designs (C104) |
| `Props/MoveProps` | Moved designs (C105) |
| `Props/SizeProps` | Size of what is read, and the exceptions of whole files (C106) |
| `Props/TransformProps` | Transformations of the encoder as transformations of the design (C107) |
| `Props/ConvertProps` | Conversions from every whole-unit reader to EXP, DST, JEF, XXX (C108) |
| `Props/SettingProps` | Two runs with different settings (C109) |
| `Props/CausalProps` | Designs that go on (C110) |
| `Props/UnitProps` | Units of length (C111) |
| `Ct0`, `Props/Ct0Props` | CT0 files beside TBF (C112) |
| `Props/EqualProps` | equal patterns make equal files (C113) |
| `Files`, `Props/FilesProps` | files on a disk before and after saving, reading and converting (C114) |
| `Props/ScoreProps` | the order of stitches, trims, stops, speeds and changes (C115) |
| `Props/GrowthProps` | how long the normal form can get (C116) |
| `Props/Vp3TreeProps` | the blocks of a VP3 file and its header (C117) |
| `Props/PecColourProps` | the threads read from any PEC or PES file (C118) |
| `Props/ConvertMoreProps` | conversion to U01, TBF and VP3 (C108) |
| `Props/HoopProps` | the normal form stays within the outline of the design (C119) |
| `Props/CsvReadProps` | CSV tables from elsewhere (C120) |
| `Props/ConvertSourceProps` | conversion from SHV, HUS, PHC and VP3 (C108) |
| `Props/AfterEndProps` | what follows the END (C121) |
| `Into`, `Props/IntoProps` | reading into a pattern that exists (C122) |
| `Props/WordProps` | threads and needles asked for and the stitches (C123) |
| `Props/SameFileProps` | saving twice (C124) |
| `Props/ElsewhereProps` | EXP, U01, PEC, XXX, TBF, JEF and DST files from elsewhere (C125) |
| `Props/Vp3ElsewhereProps` | VP3 files from elsewhere (C126) |
| `Props/ColourElsewhereProps` | EDR, INF, COL and PMV files from elsewhere (C127) |
| `Extras`, `Props/ExtrasProps` | metadata of patterns and what is derived from them (C128) |
| `Props/SequinProps` | sequins of normalized patterns and of files (C129) |
| `LoadTrims`, `Props/LoadTrimProps` | reader settings of JEF, DST, TAP and EXY, and the trims they lead to (C130) |
| `Props/JefTrimProps`, `Props/DstTrimProps` | trims of saved designs (C131) |
| `SaveSettings`, `Props/SaveSettingProps` | the settings of the writers (C132) |
| `Props/FileSizeProps` | sizes of files against their headers (C133) |
| `Props/AppendTranslationProps` | `append_translation` (C134) |
| `Props/NeedleMatrixProps` | matrix commands about the needle are positions (C107); scaled and turned patterns added (C74) |
| `Props/Vp3FractionProps` | VP3 files of designs with fractions (C16) |
| `Props/Vp3SewnProps` | What is sewn from the VP3 file of a design with fractions (C94) |
| `Props/Vp3ConvertProps` | Conversion to VP3 for any positions (C108) |
| `Props/SameXxxProps` | XXX files saved again (C135), and C123 for XXX |
| `Props/ArrayProps` | arrays of bytes (C02) |
| `Props/MatrixShapeProps` | which matrices act on points (C35, C36) |
| `Listing`, `Props/ListingProps` | get_as_stitches and the counts (C136) |
| `Spec` | specification vocabulary, independent of the model's helpers |
| `Props/*` | the property theorems, each with a concrete case that meets its hypotheses |

Helper lemmas live beside the model or in the `Props` file that needs them; the property theorems are named `Cxx_…`, under `Props/`.

## 2. Conventions and trusted base

* **Kernel and axioms.** Trusted: Lean's kernel. Every theorem depends at most on `propext`, `Classical.choice` and `Quot.sound`;
  `AXIOMS.md` lists them theorem by theorem. No axiom is added, nothing is evaluated outside the kernel (no `native_decide`).
* **Correspondence.** That the definitions say what the Python code does was checked by reading only; each definition cites the
  lines it models and says where it simplifies. This is the part a reader has to trust or check.
* Python `int` is `Int` (or `Nat` where the code guarantees it). `v & (2^k-1)` on an int of either sign is
  `v % 2^k` (Euclidean); `v >> k` is floor division.
* Python floats are exact rationals `ℚ` (**simplification**: no IEEE rounding, no NaN; `Float` models rounding where coordinates are computed, see C97). `float("inf")` as a limit is
  `none : Option ℚ`.
* `sqrt`, `cos`, `sin`, `atan2` are parameters (`Libm`): theorems hold for whatever those functions return; where a
  bound on them is needed it is a visible hypothesis (`Libm.Sound`).
* Printing and parsing of floats (`str`, `float`) is a parameter with a visible hypothesis (`Csv.Num.Sound`).
* Exceptions are values (`Except PyErr _`). Random filler threads are a distinguished value (`none`) or an arbitrary function.
* `dict`s are insertion-ordered association lists; `set`s are quantified over every order.
* Files are lists of bytes (or of characters for text files); seeking and back-patching in writers is modelled by the final byte list.
* Standard library: `csv.reader` is modelled by its state machine; `json.dump`/`json.load` are taken to return the written object;
  `zlib.compress` is an arbitrary function with `decompress (compress b) = b`; `str.lower` is a parameter known on ASCII.
* Memory is modelled (`Heap`, `Dispatch`) where sharing matters; elsewhere patterns are values.

## 3. Properties

Method, status and main theorems. `partial`: the full statement is false of the code or not proved in full; the theorem that holds has
the suffix `_partial` (or says exactly what happens, suffix `_exact`/`_actual`), and where the statement is false a witness is proved.
`MANIFEST.json` says for each what is missing.

| id | property | method | status | theorems |
|---|---|---|---|---|
| C01 | Thread-change commands survive packing into one integer | digit arithmetic base 256; witness at 255 | partial | `C01_decode_encode_partial`, `C01_decode_fields`, `C01_index_255_lost` … |
| C02 | Integers written with the binary helpers are read back unchanged | arithmetic modulo powers of two | proved | `C02_write_spec`, `C02_read_write`, `C02_signed_roundtrip` … |
| C03 | A DST stitch record decodes to the displacement and command that were encoded | complete finite table per axis, lifted to all pairs because x and y use different bits | proved | `Dst.C03_record`, `Dst.C03_fixed` |
| C04 | The DST writer refuses, rather than corrupts, displacements that do not fit | case analysis of the cascade | proved | `Dst.C04_refuses` |
| C05 | A trim written to DST does not move the design | induction on `trim_at` | proved | `Dst.C05_net`, `Dst.C05_jumps`, `Dst.C05_recognised` |
| C06 | A DST file reads back as the design that was written | record-wise round trip by induction, then `C50_exact` for the trims the reader infers | partial | `Dst.C06_roundtrip_partial`, `Dst.C06_speed_adds_stitch` |
| C07 | The DST header occupies exactly the 512 bytes every reader skips | length arithmetic | partial | `Dst.C07_length`, `Dst.C07_header_partial`, `Dst.C07_long_name_overflows` |
| C08 | An EXP file reads back as the design that was written | induction over the command list, case analysis per record | proved | `Exp.C08_roundtrip`, `Exp.C08_escape`, `Exp.C08_sequin_shifts` |
| C09 | A JEF body reads back as the design that was written | as C08 | partial | `Jef.C09_roundtrip_partial` |
| C10 | JEF colour table and colour-change records always agree | invariant linking palette construction and the reader's colour index | partial | `Jef.C10_count_partial`, `Jef.C10_written`, `Jef.C10_offset` … |
| C11 | PEC displacement values survive their two encodings | `omega` on the two encodings | proved | `Pec.C11_written`, `Pec.C11_read` |
| C12 | A PEC stitch section reads back as the design that was written | as C08 | partial | `Pec.C12_exact`, `Pec.C12_strikes_partial`, `Pec.C12_extra_strike` |
| C13 | A U01 body reads back as the design that was written | as C08 | partial | `U01.C13_exact`, `U01.C13_roundtrip_partial`, `U01.C13_speeds_partial` … |
| C14 | A TBF body reads back as the design that was written | as C08 | partial | `Tbf.C14_exact`, `Tbf.C14_roundtrip_partial`, `Tbf.C14_still_jump` … |
| C15 | An XXX body reads back as the design that was written | as C08 | partial | `Xxx.C15_exact`, `Xxx.C15_roundtrip_partial`, `Xxx.C15_limit_stitch` … |
| C16 | A VP3 colour block reads back as the stitches that were written | induction over the stitches of a block and over the blocks | partial | `Vp3.C16_block`, `Vp3.C16_fraction`, `Vp3.C16_file_partial` … |
| C17 | expand undoes compress | header evaluated once symbolically in the payload, then induction on the bytes | partial | `Compress.C17_roundtrip_partial`, `Compress.C17_fails_empty`, `Compress.C17_fails_256` … |
| C18 | Rounding to file units never accumulates | invariant `|written - true| <= 1/2` | proved | `C18_no_drift`, `C18_exact` |
| C19 | Encoding with a format's own settings never produces a step the format cannot hold | C22, whole end points, C18 | proved | `C19_fits`, `Dst.C19_dst_never_raises` |
| C20 | A normalized pattern ends with END and contains it nowhere else | invariant of the encoder loop | proved | `C20_single_end` |
| C21 | A normalized pattern contains only low-level commands | invariant | proved | `C21_low_level`, `C21_no_speeds`, `C21_no_sequins` … |
| C22 | Encoded steps respect the maximum length | invariant with C23 for the gaps | proved | `C22_step_length` |
| C23 | Subdividing a long gap follows the straight line and stops within reach | induction on the number of steps | proved | `C23_gap_far`, `C23_gap_near`, `C23_gap_total` |
| C24 | Encoding neither loses nor invents needle penetrations | the penetrations of the output are shown equal to a separately written walk over the source, by induction with the state of the encoder as invariant | proved | `C24_strikes`, `C24_exact` |
| C25 | Sequin mode is on exactly where sequins are ejected | invariant | proved | `C25_sequin_mode` |
| C26 | Commands that do not move are emitted at the needle's position | invariant | proved | `C26_at_needle` |
| C27 | Planning colour changes never fails and matches the changes made | invariant of the planner, then of the main loop | proved | `C27_only_zero_division`, `C27_total`, `C27_thread_count` … |
| C28 | COLOR_BREAK before the first stitch or after the last stitch does nothing visible | simulation: with and without the break | partial | `C28_leading`, `C28_trailing`, `C28_between_partial` … |
| C29 | Trims are never repeated and never precede sewing | invariant | proved | `C29_trims` |
| C30 | Colours are used in the stated order | invariant on the change sequence | partial | `C30_in_order`, `C30_words_in_order`, `C30_explicit_partial` … |
| C31 | Automatically assigned needles are real needles | arithmetic of the packed word, induction on the plan | partial | `C31_cycle_partial`, `C31_range_partial`, `C31_all_used` … |
| C32 | Tie-on and tie-off stitches return to the needle and stay within the limit | geometry of the eight lock stitches | proved | `C32_lock`, `C32_anchor_near`, `C32_within` … |
| C33 | Normalizing is idempotent on core patterns | the output of a run is shown to be a fixed point: plan lemma, then simulation of the second run | partial | `C33_twice_partial`, `C33_needles_partial`, `C33_not_stops` … |
| C34 | translate, scale and on-the-fly matrix commands mean what they say | the transformation in force is carried through the loop as invariant | proved | `C34_matrix`, `C34_needle_fixed`, `C24_strikes` |
| C35 | Matrix products compose transformations | `ring` | proved | `C35_multiply_spec`, `C35_identity_spec`, `C35_point_spec` … |
| C36 | Matrix inversion inverts | `field_simp`, `ring` | proved | `C36_inverse_defined`, `C36_inverse_spec`, `C36_inverse_inverse` … |
| C37 | Scaling or rotating about a point keeps that point fixed | `ring` | proved | `C37_scale_about`, `C37_rotate_about`, `C37_fixed_point` … |
| C38 | The nearest palette colour is nearest | induction over the palette | proved | `C38_nearest`, `C38_exact`, `C38_palette` |
| C39 | Colour distance is a sensible measure | arithmetic | proved | `C39_distance`, `C39_distTo` |
| C40 | A unique palette keeps different colours apart | induction over the set in any order | proved | `C40_unique`, `C40_unique_list`, `C40_result_shape` |
| C41 | A non-repeating palette never gives consecutive different threads the same colour | induction over the thread list | partial | `C41_nonrepeat_partial`, `C41_repeat_not_kept`, `C41_repeat_kept_when_nearest` … |
| C42 | Thread colours survive hex notation | finite table of nibbles and arithmetic | proved | `C42_hex_roundtrip`, `C42_hex_form`, `C42_channels` … |
| C43 | bounds() is the tight bounding box | induction | proved | `C43_tight`, `C43_empty`, `C43_translate` |
| C44 | Centring puts the design's centre at the origin | arithmetic of `round` | proved | `C44_centred`, `C44_empty` |
| C45 | Command blocks partition the stitches | induction | proved | `Blocks.C45_command_blocks` |
| C46 | Colour blocks partition the stitches | induction | proved | `Blocks.C46_color_blocks` |
| C47 | Stitch blocks contain all and only the stitches | induction | proved | `Blocks.C47_stitch_blocks` |
| C48 | fix_color_count provides a thread for every colour | induction | partial | `Blocks.C48_fix`, `Blocks.C48_every_colour_partial`, `Blocks.C48_double_change` |
| C49 | Stops survive conversion to duplicate colours and back | induction | partial | `Ops.C49_restores_partial`, `Ops.C49_stops_become_colours`, `Ops.C49_fails` … |
| C50 | Inferring trims never touches sewing | the loop is shown equal to a specification by runs of jumps | partial | `C50_exact`, `C50_sewing_kept_partial`, `C50_edited` … |
| C51 | get_pattern_merge_jumps replaces every run of jumps by one STITCH_BREAK | induction | partial | `Blocks.C51_single_run_partial`, `Blocks.C51_others`, `Blocks.C51_actual` … |
| C52 | get_pattern_interpolate_trim keeps every non-jump command and adds trims only at long jump runs | induction | partial | `Blocks.C52_keeps_partial`, `Blocks.C52_actual`, `Blocks.C52_last_run` |
| C53 | A copy is independent of the original | frame lemmas over a memory of cells, for every program of method calls | partial | `Heap.C53_copy`, `Heap.C53_list_calls_partial`, `Heap.C53_apart_partial` … |
| C54 | Encoding and saving never modify the pattern | frame lemmas | partial | `Heap.C54_derived`, `Heap.C54_normalize`, `Heap.C54_result` … |
| C55 | Relative and absolute stitch entry agree | induction over the calls | partial | `Ops.C55_entry_partial`, `Ops.C55_running_sums`, `Ops.C55_agree` … |
| C56 | Adding one pattern to another appends it | induction | partial | `Ops.C56_appends_partial`, `Ops.C56_colours_partial`, `Ops.C56_empty` … |
| C57 | A stable pattern contains only stitches and breaks | induction | proved | `Blocks.C57_stable` |
| C58 | CSV and JSON name every command reversibly | complete finite table of names, digit induction | partial | `C58_roundtrip_partial`, `C58_low_bits`, `C58_unnamed` … |
| C59 | Colour-only files keep the colours | induction | partial | `C59_edr`, `C59_edr_read`, `C59_col` … |
| C60 | Readers accept every byte string | structural recursion (so every input is accepted), induction for the last command | partial | `Readers.C60_ksm`, `Readers.C60_dsb`, `Readers.C60_dsz` … |
| C61 | Nested output of the generic writer is balanced | open/close invariant | partial | `Generic.C61_nested`, `Generic.C61_balanced_partial`, `Generic.C61_numbered` … |
| C62 | Line rasterisation reaches its end point | invariant of the Bresenham error term | proved | `Png.C62_points`, `Png.C62_line` |
| C63 | PEC thumbnails: bits mark exactly their pixel | bit arithmetic; functions on byte arrays | proved | `PecGraphics.C63_mark`, `PecGraphics.C63_unmark`, `PecGraphics.C63_text` … |
| C64 | Files are dispatched by extension and unknown ones are refused | complete finite table | proved | `Dispatch.C64_extension`, `Dispatch.C64_no_dot`, `Dispatch.C64_hidden` … |
| C65 | User settings win over format defaults and are left unmodified | association lists by address | proved | `Dispatch.C65_settings`, `Dispatch.C65_no_pattern`, `Dispatch.C65_encoder` … |
| C66 | Binary headers place the data where readers look for it | length arithmetic | partial | `U01.C66_u01`, `Xxx.C66_xxx`, `Tbf.C66_tbf_partial` … |
| C67 | interpolate_frame_eject recovers frame-out stops | induction | partial | `Ops.C67_keeps_partial`, `Ops.C67_replaces_partial`, `Ops.C67_actual` … |
| C68 | The reader finds the parts of a PEC file where the writer put them | length arithmetic and skips | partial | `Pec.C68_layout_partial`, `Pec.C68_name_shifts`, `Pec.C68_too_many` |
| C69 | Header fields describe the design | arithmetic of the fields; C43 for the box | proved | `C69_xxx`, `C69_u01`, `C69_jef` … |
| C70 | A CSV file gives the design back | the parser of `csv.reader` is run over the written text by induction on rows | partial | `Csv.C70_roundtrip_partial`, `Csv.C70_rows`, `Csv.C70_thread_loses` … |
| C71 | A JSON file gives the design back | induction | partial | `Json.C71_roundtrip_partial`, `Json.C71_elsewhere`, `Json.C71_unnamed` |
| C72 | The generic writer writes the design's commands in order, with true positions | invariant with positions; segment grammar | proved | `Generic.C72_positions`, `Generic.C72_framed` |
| C73 | The PNG picture shows the stitches where they are | induction over the drawn lines; byte layout of rows | proved | `Png.C73_picture`, `Png.C73_covered`, `Png.C73_stitches` … |
| C74 | An added pattern is sewn turned, scaled and moved as asked | C24 applied to the concatenation | partial | `C74_added_partial`, `C74_moved`, `C74_normalized` … |
| C75 | The singleton thread list keeps one thread per run of equal threads | induction | proved | `Blocks.C75_singletons` |
| C76 | Compressed stitch data of HUS and VIP files written by another program is expanded to what was compressed | code words are a prefix code; induction over tokens and blocks | proved | `Compress.C76_expand`, `Compress.C76_expand_exact`, `Compress.C76_expand_prefix` |
| C77 | A DST file keeps the name of the design, and an extended header its author, copyright notice and threads | lines of the header are found again by induction; C06 for whole files | proved | `Dst.C77_header`, `Dst.C77_file`, `Dst.C77_comma_fails` |
| C78 | A PEC file gives back the design: label, stitches, stops, one palette thread per thread, and thumbnails | byte layout (C68) and section (C12), palette assignment (C40), stop conversion undone (C49), all commuting with the renaming of threads | partial | `Pec.C78_file_partial`, `Pec.C78_roundtrip_partial`, `Pec.C78_no_threads` … |
| C79 | A PES file gives back the design | layout of the file by lengths, each reading function undoes its writing function with any rest; then C78 | partial | `Pes.C79_version_1`, `Pes.C79_version_6_partial`, `Pes.C79_roundtrip_partial` … |
| C80 | The segments in a PES file draw the design | the parser is specification; segment loop over command blocks related to the drawing by induction over blocks; writing and parsing of each field | partial | `Pes.C80_blocks_partial`, `Pes.C80_version_1_partial`, `Pes.C80_version_6_partial` … |
| C81 | A G-code file gives back the design | parser run over one printed number, one key, one comment, one line with any rest; induction over the commands; printing and parsing of decimals are inverse; with C24 for the encoder | partial | `Gcode.C81_read_partial`, `Gcode.C81_kinds`, `Gcode.C81_strikes` … |
| C82 | An SVG file draws the design | the specification is a reader of tags and path data; splitting undoes joining field by field; then C47, C43 and C24 | proved | `Svg.C82_paths`, `Svg.C82_stitches`, `Svg.C82_viewbox` … |
| C83 | A TXT file lists the design | induction over the commands; printing and parsing of decimals from C81 | partial | `Txt.C83_mimic`, `Txt.C83_mimic_fails`, `Txt.C83_normal_partial` … |
| C84 | PMV files keep up to 100 points | the reader's position is 5/2 of the writer's integer position, which is within 1/2 of 2/5 of the point: an invariant over the points; the extremes of the first loop are those of `Vertical` | partial | `Pmv.C84_roundtrip_partial`, `Pmv.C84_trim_fails`, `Pmv.C84_long_fails` … |
| C85 | HUS files are read as what they record | slices of the file by length; C76 for the streams; induction over the events | proved | `Hus.C85_read`, `Hus.C85_index_fails` |
| C86 | TAP, EXY, STX, PHB and PHC files hold the stitches of another format | the layout is stated by what the file has at each place; C06, C08 and C12 for the records | partial | `Containers.C86_dst_partial`, `Containers.C86_stx`, `Containers.C86_phb` … |
| C87 | An SHV file is read as the design its tables describe | records of one block by induction over its items, blocks by induction over the colours; the layout of the header by dropping its parts | proved | `Shv.C87_read`, `Shv.C87_overrun`, `Shv.C87_no_colours_fails` … |
| C88 | The records of each small stitch format are read as the commands they record | a general lemma on loops of records: if every record of a format is read as its commands from any state, a list of records is, by induction; then one case per record, by linear arithmetic on sign bits | partial | `Records.C88_dsb`, `Records.C88_dsz`, `Records.C88_fxy` … |
| C89 | A file of the small formats gives the threads its header names | colour tables by induction over the list of colours; the ZHS texts by a lemma on splitting at two characters; the stitches by C88 | partial | `SmallFiles.C89_dsb`, `SmallFiles.C89_dsz`, `SmallFiles.C89_sew` … |
| C90 | A PES file of version 4 to 10 gives the texts and threads of its header | each field is cut off the front of the file by a lemma; the table of threads by induction with the colours already passed as the invariant | proved | `Pes.C90_header`, `Pes.C90_version_4`, `Pes.C90_plain` … |
| C91 | Every stitch is sewn in its own colour | each step of the encoder appends stitches without colour changes followed by at most one change word (`Shade.step_tidy`), and raises the order index as the specification says (`Shade.step_begun`); induction over the source together with the walk of C24 | proved | `C91_shades`, `C91_plain`, `C91_blocks` |
| C92 | All ways of entering points enter the same design | induction over the points for each loop; the sewn result from C91 and C30 | proved | `Enter.C92_points`, `Enter.C92_commands`, `Enter.C92_odd` … |
| C93 | Equality of threads and patterns, and what a thread can be made from | `==` reduced to equality of a key; sets by induction over the list; dicts by counting keys | proved | `C93_equal`, `C93_hash`, `C93_int` … |
| C94 | A design saved and loaded again is sewn where and in the colours its source says | C91 composed with each format's round trip; the shading is shown to pass through what each reader keeps | partial | `C94_written`, `C94_exact`, `C94_exp` … |
| C95 | What is sewn with which needle | run invariant: needle commands written = colours begun; the first sewing step is a change followed by a step; files by composing with C13 and C14 | partial | `C95_needles`, `C95_plain`, `C95_in_turn_partial` … |
| C96 | G-code from elsewhere is read as it says | a parsing lemma for lines of any words, then induction on the program with unit, mode and position | proved | `Gcode.C96_program`, `Gcode.C96_feed_move_fails` |
| C97 | Floating point makes no step too long and no position drift | relative error of rounding to 53 bits; error bound by induction along the running sum, exactness where the gap is a whole multiple of the limit; the writers' position as the nearest whole number but for a hair | proved | `C97_gap_fits`, `C97_gap_near`, `C97_lock_fits` … |
| C98 | Saving and loading again and again loses nothing | from C94 and C91 each round keeps the list of coloured strikes; the shape of the design is an invariant of a round (which commands the encoder and each reader can produce); induction over the rounds | partial | `C98_no_loss_partial`, `C98_goes_on`, `C98_goes_on_jef` … |
| C99 | A file that was cut off is read as the beginning of its design | a round of a reader makes the same of a complete record whatever follows it, and adds nothing for an incomplete one; induction over the rounds gives a prefix of records, and positions are sums from the start | partial | `Readers.C99_ksm`, `Readers.C99_dsb`, `Readers.C99_dsz` … |
| C100 | What follows the end of a design does not matter | induction over the records before the mark: each round makes the same of a record whatever follows, and at the mark both readings stop | partial | `Readers.C100_ksm`, `Readers.C100_dsb`, `Readers.C100_dsz` … |
| C101 | Texts made with the generic writer are filled with the values of the design | the dictionary is a function of names; updates with disjoint sets of names (decided on the complete list of names) leave the others alone; induction over the commands with the invariant that the fixed fields and the indices are right | partial | `Generic.C101_text_partial`, `Generic.C101_fill`, `Generic.C101_sum` … |
| C102 | The guides of a PNG picture are a ruler for the design | every drawing step is a change of single pixels depending on the pixel alone; texts keep black pixels black, lines keep dark ones dark, and lines and texts never meet (arithmetic modulo 50); a line is the one of C62/C73 | partial | `Png.C102_guides_partial`, `Png.C102_whole`, `Png.C102_room` … |
| C103 | Any design can be saved, and the file consists of bytes | totality of the encoder (C27), its step bounds (C22) and needle ranges (C31); every write function yields bytes; index ranges of the palettes and of the plan | partial | `C103_normalized`, `C103_exp`, `C103_dst` … |
| C104 | Mirrored and turned designs are normalized to mirrored and turned results | two runs of the encoder in parallel: every function of the encoder commutes with the symmetry (equations, by unfolding), induction on the source | proved | `C104_design`, `C104_settings`, `C104_scale` … |
| C105 | A moved design is normalized to the moved result | as C104, with what was written before the first point as a parameter | partial | `C105_design_partial`, `C105_translate_partial`, `C105_odd_fails` |
| C106 | A file is read as no more than it holds, or refused with a known exception | recursion along the bytes for every reader: each round uses up at least as many bytes as it adds commands; header counts only bound loops that stop or raise at the end of the file | partial | `Size.C106_jef`, `Size.C106_xxx`, `Size.C106_tbf` … |
| C107 | Transforming while normalizing is transforming before normalizing | simulation of two runs that differ in the matrix of the state and the positions of the source | partial | `C107_flat_partial`, `C107_needle_partial`, `C107_transform` … |
| C108 | Converting a file into another format keeps every stitch in its place | shape of what each reader makes, the sewing walk of C24/C94 on it, and the round trips of C06, C08, C09, C15; induction over the chain | partial | `C108_readable`, `C108_readable_fine`, `C108_readable_more` … |
| C109 | A setting changes only what it names | two runs compared step by step by a relation of the outputs that each setting instantiates; the plans compared entry by entry | partial | `C109_speeds`, `C109_ties`, `C109_full_jump_partial` … |
| C110 | What is appended to a design does not change how the beginning is normalized | the plan of the longer design extends that of the shorter; steps agree as long as they look only inside; output only grows (by the comparison of two runs of C109) | partial | `C110_appended_partial`, `C110_refused`, `C110_not_breaks` … |
| C111 | The normalization knows no unit of length | two runs in step; the state of the second is that of the first with positions, limits and the shift of the matrix times the factor | proved | `C111_units`, `C111_not_round` |
| C112 | The CT0 file beside a TBF file names the same needles at fixed places | the file as one concatenation of parts of known length; induction over the needle changes | partial | `Ct0.C112_layout_partial`, `Ct0.C112_agree_partial`, `Ct0.C112_overrun` … |
| C113 | Patterns that compare equal are saved as the same file | every writer factors through the thread with 24 bits of colour; the normalization by a simulation of two runs with equal threads | partial | `C113_stitches`, `C113_dst`, `C113_jef` … |
| C114 | Saving touches the named file only, and only after the design was normalized | the disk as a function from names to contents; case analysis of the calls in their order | partial | `Files.C114_refused`, `Files.C114_normalize`, `Files.C114_none` … |
| C115 | Stitches, trims, stops, speeds and thread changes come in the order of the source | the walk of C24 extended by signals; each step of the encoder writes a muted part, a part with stitches only, and a muted part | proved | `C115_score`, `C115_pace`, `C115_between` … |
| C116 | A normalized pattern is at most so much longer than its source | each function of the encoder adds at most a fixed number of commands, the gap at most as many as it has steps, and leaves the needle in the rectangle; induction over the source | proved | `Growth.C116_length`, `Growth.C116_unlimited` |
| C117 | The blocks of a VP3 file fit into each other, and its header describes the design | a parser that follows the distances is defined; each block written is parsed back by lemmas on appended bytes, by induction over the colour blocks | proved | `Vp3.Tree.C117_tree`, `Vp3.Tree.C117_text_fails` |
| C118 | The threads read from any PEC or PES file are the ones its header and colour bytes stand for | induction over the colour bytes; the invariant says which thread each number seen has been given and how many of the header are left | proved | `Pec.C118_threads` |
| C119 | The normalization never leaves the outline of the design | each function of the encoder keeps all positions in a convex set, and what is sewn in a smaller one, in which the needle is whenever the thread is not cut; induction over the source; hulls from Mathlib; matrix commands by C107 | proved | `Hoop.C119_hull`, `Hoop.C119_locked`, `Hoop.C119_hoop` … |
| C120 | A CSV table from elsewhere is read as its rows say | text of a table and meaning of a row as inductive relations, apart from the reader; induction over the table, the row and the value | proved | `Csv.Table.C120_table`, `Csv.Table.C120_read`, `Csv.Table.C120_unknown` |
| C121 | What follows the END of a design is not sewn and changes nothing | the two runs go in step: plans agree on the changes before the END (as in C110), looking ahead stops there | partial | `C121_after_end_partial`, `C121_plain_partial`, `C121_sequence_fails` … |
| C122 | A file read into a pattern comes behind what the pattern holds | the reader as calls of add_stitch_relative on any pattern; relative records placed from another origin are moved; C121 | proved | `C122_exp`, `C122_readers`, `C122_not_sewn` … |
| C123 | Which thread or needle a change asks for moves no stitch | the two runs of the encoder go in step; plans have the same keys, states differ in words and threads only | proved | `C123_asked`, `C123_words`, `Exp.C123_exp` … |
| C124 | A file saved, loaded and saved again is the same file | the rounded result of a normalization is again a fixed point up to the words of the changes (C33, C123); deltas of rounded positions are the deltas | partial | `Exp.C124_exp_partial`, `Exp.C124_converted_partial`, `Exp.C124_not_stops` … |
| C125 | Files of the larger formats written by other programs are read as their records say | specification of the records of each format; one lemma per kind of record, then induction on the list of records | proved | `Elsewhere.C125_exp`, `Elsewhere.C125_u01`, `Elsewhere.C125_pec` … |
| C126 | VP3 files written by other programs are read as their records say | specification of the whole file by its fields; position lemmas for every field, induction on colours, records and blocks | partial | `Vp3.Elsewhere.C126_partial`, `Vp3.Elsewhere.C126_read`, `Vp3.Elsewhere.C126_axis_fails` |
| C127 | Colour files and PMV files written by other programs are read as they say | specification of records, lines and blocks; induction on their lists | proved | `C127_edr`, `C127_inf`, `C127_col` … |
| C128 | Metadata stay with the design | dictionary lemmas by induction on the list of entries | proved | `Extras.C128_entered`, `Extras.C128_item`, `Extras.C128_derived` … |
| C129 | No sequin is lost, invented or moved | every elementary action but SEQUIN_EJECT leaves the sequins alone; a walk over the source beside the one of C24; induction over the design with the state of thread and needle | proved | `C129_sequins`, `C129_exact`, `C129_held` … |
| C130 | Trims are inferred for long runs of jumps, and lengths are millimetres | the description of C50 splits at every command that ends a run; induction over the jumps with the displacement from the start | proved | `C130_run`, `C130_jef`, `C130_dst` … |
| C131 | Trims survive being saved as JEF or DST | the invariant of C29 strengthened along the elementary actions; the description of C50 splits at the stitch, and the run after it holds the jumps of the burst | partial | `C131_thread`, `C131_jef_partial`, `C131_dst_partial` … |
| C132 | The settings of a writer choose the variant of the file, not the design | the dictionary is modelled and the writers take their arguments from it; the sameness follows from C06, C70, C78 and C79 for each variant, and C49 for the stops | proved | `C132_dst_choice`, `C132_dst`, `C132_csv_choice` … |
| C133 | Positions and counts in headers fit the bytes that follow | induction over the stitches: the size of the bytes written for each command against the term of the count; the place of the fields by lengths of what comes before | partial | `C133_jef`, `C133_xxx`, `C133_dst` … |
| C134 | append_translation moves what is entered afterwards by the given amount | the entered list is computed; C107 turns the matrix command into moved positions | partial | `C134_moved`, `C134_amount_partial`, `C134_not_amount` … |
| C135 | An XXX file saved, loaded and saved again is the same file | `Xxx.write` depends on displacements, bounding box, length, end and the low 24 bits of the colours only (`write_depends`); rounding keeps a box with whole edges (`bounds_alike`); `SameFile.again` of C124 for the second normalization. | partial | `Xxx.C135_xxx_partial`, `Xxx.C135_not_speed`, `Xxx.C135_not_limit` … |
| C136 | get_as_stitches lists everything, and the counts are those of the list | induction on the list; the arithmetic of the packed words of C01 | proved | `Listing.C136_listed`, `Listing.C136_restored`, `Listing.C136_counts` |

## 4. Where the code disagrees with the stated property

Each of these was found while proving; those with a theorem name are proved on the model.

**Encoder.** A leading COLOR_BREAK shifts the plan of thread indices (`C30_*`). A stitch with flag bits is invisible to the look-ahead
(`C28_*`). The packed thread change breaks at index 255 (C01, C31). TIE_OFF as first command looks at the last stitch (index −1).
SEQUIN_REMOVE emits a STITCH when trimmed. An unknown sequin contingency moves the needle without output. Formats without sequin records lose the
displacement of an ejected sequin if the source itself switches sequins on (`C08_*` witness). `C33_not_*`: normalizing twice differs for STOP
mode, ties, a doubled leading change, rounding of split stitches, an IMPLICIT_TRIM command under explicit trims, and `max_jump < max_stitch`.

**Patterns.** `fix_color_count` miscounts two changes in a row (C48). `get_pattern_merge_jumps` drops every run after the first and puts
its STITCH_BREAK at the origin (C51). `get_pattern_interpolate_trim` counts a final run one short (C52). Conversion between stops and duplicate
colours loses leading, doubled and trailing stops (C49). `interpolate_trims` with clipping deletes STOP and END between cancelling jumps
(C50). `interpolate_frame_eject` deletes END (C67). `insert_stitch_relative` at the end is not relative to the previous stitch (C55).
`add_pattern` raises IndexError for an empty pattern or one without threads, and shifts colours after an unused thread (C56).
`copy()` and `p + q` share stitch objects, so `translate` on the copy moves the original (C53). With `encode=False` the PEC, PES, JEF, VP3 and PNG
writers change the caller's pattern (C54). `p += []` and `m @= n` yield `None`.

**DST.** SLOW and FAST are written as stray stitches (C06). Names longer than the field push the stitches out of place (C07). A comma in a thread
description shifts description and catalogue number; absent texts read back as `None` (C77). An empty pattern raises OverflowError.

**JEF, PEC, VP3, U01, TBF, XXX.** JEF: a pattern that starts with a colour change or has no thread breaks the colour table (C10); a second STOP reads
as colour change; too large designs are labelled with the 110x110 hoop. PEC: extra penetrations after jumps (C12); a non-ASCII name
shifts the file, more than 255 colours fail, none gives 256 threads (C68). VP3: a block starting on an axis is not moved, a half-integral
centre shifts later blocks by one unit, distances beyond 16 bit wrap, non-ASCII thread texts make the file unreadable (C16). U01: a speed change before a stitch that does not
move swallows it; both speed changes give a TRIM; needle 0 becomes STOP, needle 15 becomes 1 (C13). TBF: JUMP that does not move becomes TRIM,
needle 0 STOP, a long name shifts the tables (C14, C66). XXX: stitches of exactly 124 units become jumps, STOP becomes a colour change (C15).

**Compression.** `compress` writes the length low byte first, `expand` reads it high byte first: 256 zero bytes come back as 39; the empty string comes back as
one zero byte (C17).

**Text formats.** CSV does not double quotation marks, drops thread details, weight and chart, and reads absent texts back as `None` (C70). NO_COMMAND and CONTINGENCY_SEQUIN_*
have no name, so CSV and JSON files with them cannot be read (C58, C71). INF lengths count characters, not bytes (C59).

**Generic writer.** Without an END text, or when END is not the last command, the last block, colour and document are never closed (C61).

**PNG.** Lines wider than 3 wrap to neighbouring rows (C73); the loop variable is not advanced in the y-major loop.

**Readers.** BRO, SPX, MAX, ZXY, PCD, STX, JPX, SEW, SHV, HUS, XXX and JEF raise TypeError on truncated files; SPX adds no END, MIT may add several; DSB, DSZ and DST headers with
a short `TC:` line raise IndexError (C60).

**Dispatch.** Secondary extensions of a format (u00, svgz, nc, …) are refused although listed (C64).
* A PEC file without threads: `write_pec_header` writes a colour count of 255 and the reader takes 256 colours from the filling, so an empty design comes back with 256 threads (`C78_no_threads`). A pattern without any command cannot be written (`C78_no_stitches`; an infinite bound is rounded).
* PES version 6 writes the number of characters as the length of a text in bytes: an accent in the comments makes reading fail with a TypeError (`C79_accent_fails`), one in a thread description changes the colour of the next thread (`C79_accent_colour`). The PEC label counts likewise: an accent in the first eight characters of the name shifts the whole PEC part (`C78_accent_fails`).
* A design of jumps only and without threads cannot be written as PES version 6 (`C79_jumps_only_fails`).
* The segments of a PES file: two colour changes in a row are one command block, so one thread is passed over instead of two (`C80_adjacent_changes_fails`).
* G-code: a SLOW or FAST command cuts the file, END included (`C81_speed_fails`); texts with `)` are parsed as code (`C81_bracket_fails`), texts with the word `Thread` as threads (`C81_title_fails`); lower-case G-code is ignored because `str` of a byte is `"b'x'"` (`C81_small_letters_fail`).
* `TxtWriter.write_normal` never increments `color_index`: every line shows the colour of the first thread (`C83_colour_fails`); the mimicking form fails with KeyError on SLOW and FAST, which the encoder leaves in (`C83_speed_fails`).
* `SvgWriter.py` imports `xml.etree.cElementTree`, which Python 3.9 removed; there the whole package cannot be imported. (Read off the text; outside the model.)
* `PmvWriter.write` announces the number of all stitches and jumps but then looks only at that many commands, so a trim or colour change among them makes it write fewer points than announced; the reader then raises TypeError (`C84_trim_fails`). Jumps have no limit in the format's settings and wrap round in the 6-bit field (`C84_long_fails`). Points after the hundredth are dropped without notice.
* `HusReader.read` indexes the thread table without wrapping: index 29 or more is an IndexError (`C85_index_fails`), where SEW, SHV, PHB and PHC take it modulo the length.
* SHV (C87): a header with no colours raises `KeyError`: `ShvReader.py` 43 handles `IndexError`, but `stitch_per_color` is a dict. A colour that announces no stitches takes one stitch of the next colour.
* JPX (C88): a colour change with a displacement along one axis only loses it (`x != 0 and y != 0`, `JpxReader.py`). Barudan DAT: a needle change raises `AttributeError`, `needle_out` does not exist. STC: needle 23 has the same code as the end of the file. MIT: the end record is read as an END of its own, followed by the one the reader adds. SPX: no END is added.
* ZHS (C89): a catalogue number of one character is dropped (`len(parts[2]) > 3`, two characters of which are cut off). PCM: a colour number beyond 15 raises `IndexError`.

## 5. What is not modelled

* Files without any model: `ArtReader.py` (entirely commented out), `PyEmbroidery.py` (re-exports only).
* Of the small formats only what their readers look at is modelled. PCD, PCQ, PCS: a file cut inside its colours gives threads whose colour is `None` in the code and a `TypeError` in the model.
* `GenericWriter.py`: attribute and index access within fields of texts. 
* The operating system beyond named files with contents (`Files.lean`): paths, links, rights, time. `StringIO`, and printing of error messages.


## 6. Tests against wrong programs

`seeded/LOG.jsonl` has one line per deliberate fault: the definition edited, the edit, the claim it breaks, the theorems that then failed to
compile, and the theorems that were added or tightened when at first nothing failed. Faults marked equivalent make no observable difference.
