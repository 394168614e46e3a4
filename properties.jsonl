{"id": "C01", "title": "Thread-change commands survive packing into one integer", "statement": "decode_embroidery_command(encode_thread_change(cmd, thread, needle, order)) gives back exactly (cmd, thread, needle, order), where each of thread, needle and order may be None (unknown) or an index, and cmd is any low-byte command.", "quantifier": "every command byte 0..255, every thread/needle/order that is None or an index the 8-bit field can hold", "why_tests_cant": "There are 256*257^3 combinations and the fields interact through shifts and masks; a test samples a few and misses the field boundary (index 255 does not fit).", "anchors": ["pyembroidery/EmbFunctions.py:encode_thread_change", "pyembroidery/EmbFunctions.py:decode_embroidery_command", "pyembroidery/EmbConstant.py"]}
{"id": "C02", "title": "Integers written with the binary helpers are read back unchanged", "statement": "For every width (8, 16, 24, 32 bits) and both byte orders, reading what the write helper produced gives the written value modulo 2^width, the number of bytes is exactly width/8, and the signed8/16/24 conversions recover every in-range signed value; a stream that is too short gives None rather than a wrong number.", "quantifier": "every Python integer, every width and byte order, every stream length", "why_tests_cant": "The value space is unbounded and each helper spells out its own shifts; one swapped shift only shows for values that use that byte.", "anchors": ["pyembroidery/ReadHelper.py", "pyembroidery/WriteHelper.py"]}
{"id": "C03", "title": "A DST stitch record decodes to the displacement and command that were encoded", "statement": "For every displacement with |dx| <= 121 and |dy| <= 121, the three bytes the DST writer emits for STITCH, JUMP and SEQUIN_EJECT decode (decode_dx, decode_dy) to exactly that displacement, and the third byte is classified by the reader as the command that was written; the fixed records for COLOR_CHANGE, STOP, END and SEQUIN_MODE are classified as themselves (STOP as colour change).", "quantifier": "all 243*243 displacements and all commands the writer supports", "why_tests_cant": "The balanced-ternary bit assignment is irregular (bits scattered over three bytes), so neighbouring values exercise different bits; tests sample a handful of displacements.", "anchors": ["pyembroidery/DstWriter.py:encode_record", "pyembroidery/DstReader.py:decode_dx", "pyembroidery/DstReader.py:decode_dy", "pyembroidery/DstReader.py:dst_read_stitches"]}
{"id": "C04", "title": "The DST writer refuses, rather than corrupts, displacements that do not fit", "statement": "Encoding a STITCH, JUMP or SEQUIN_EJECT raises ValueError exactly when |dx| > 121 or |dy| > 121; it never emits a record for a different displacement.", "quantifier": "every integer displacement", "why_tests_cant": "The accepted range is a consequence of a cascade of twelve conditional subtractions; a test cannot rule out one out-of-range value slipping through silently.", "anchors": ["pyembroidery/DstWriter.py:encode_record"]}
{"id": "C05", "title": "A trim written to DST does not move the design", "statement": "For every trim_at setting the burst of jump records that stands for a TRIM has zero net displacement, each record is a legal DST record, and the burst contains at least trim_at jumps, so the machine (and the reader with the same trim_at) recognises it and the rest of the design is not shifted.", "quantifier": "every positive trim_at value", "why_tests_cant": "Tests use trim_at 3 and 50; parity of the count decides the sign of the last jump.", "anchors": ["pyembroidery/DstWriter.py:write"]}
{"id": "C06", "title": "A DST file reads back as the design that was written", "statement": "Writing any encoded pattern as DST and reading the bytes back yields the same sequence of needle strikes, sequin ejections and colour changes at the same positions (after the writer's rounding), whatever jumps and trims lie between.", "quantifier": "every normalized pattern of any length within the format limits", "why_tests_cant": "Reader and writer are two state machines (sequin mode, trim reconstruction) that must agree on every history.", "anchors": ["pyembroidery/DstWriter.py:write", "pyembroidery/DstReader.py:dst_read_stitches", "pyembroidery/EmbPattern.py:interpolate_trims"]}
{"id": "C07", "title": "The DST header occupies exactly the 512 bytes every reader skips", "statement": "Whatever the pattern's name, metadata and extents, the DST writer emits exactly 512 bytes before the first stitch record.", "quantifier": "every pattern name, metadata set, stitch count and extents", "why_tests_cant": "The header is built from variable-width text; only long names or extreme numbers overflow it.", "anchors": ["pyembroidery/DstWriter.py:write", "pyembroidery/DstReader.py:dst_read_header"]}
{"id": "C08", "title": "An EXP file reads back as the design that was written", "statement": "For any command list whose steps are within the EXP limit (127), reading the written bytes gives back the same stitches, jumps, trims and colour changes at the same positions; no data byte is mistaken for a control code.", "quantifier": "every command list of any length with steps within the limit", "why_tests_cant": "A displacement byte equal to 0x80 collides with the control prefix; absence of collisions must hold at every position of every file.", "anchors": ["pyembroidery/ExpWriter.py:write", "pyembroidery/ExpReader.py:read_exp_stitches"]}
{"id": "C09", "title": "A JEF body reads back as the design that was written", "statement": "For any encoded command list within the JEF limits, reading the written stitch section gives back the same stitches and jumps at the same positions, and each colour change or stop at its place.", "quantifier": "every command list of any length with steps within the limit", "why_tests_cant": "Same control-prefix collision problem as EXP, on unbounded histories.", "anchors": ["pyembroidery/JefWriter.py:write", "pyembroidery/JefReader.py:read_jef_stitches"]}
{"id": "C10", "title": "JEF colour table and colour-change records always agree", "statement": "For every pattern the number of colour-table entries the JEF writer emits is one more than the number of colour/stop records before END (when anything is stitched), the stated stitch offset is the actual one, and reading the result never runs off the colour table.", "quantifier": "every normalized pattern with any mixture of colour changes and stops", "why_tests_cant": "Stops are encoded through a toggling sentinel colour; agreement depends on the whole history of stops and colour changes.", "anchors": ["pyembroidery/JefWriter.py:write", "pyembroidery/JefReader.py:read", "pyembroidery/JefReader.py:read_jef_stitches"]}
{"id": "C11", "title": "PEC displacement values survive their two encodings", "statement": "Every displacement value -2048..2047 written by the PEC encoder decodes to itself with the flags (jump/trim) that were written, the short form is used exactly when it is safe, and no encoded value starts with a byte that means colour change or end of file.", "quantifier": "all values -2048..2047, short and long forms, with each flag", "why_tests_cant": "The codec switches between 7-bit and 12-bit forms; collisions with 0xFE 0xB0 and 0xFF must be excluded for all values.", "anchors": ["pyembroidery/PecWriter.py:write_value", "pyembroidery/PecWriter.py:pec_encode", "pyembroidery/PecReader.py:read_pec_stitches", "pyembroidery/PecReader.py:signed7", "pyembroidery/PecReader.py:signed12"]}
{"id": "C12", "title": "A PEC stitch section reads back as the design that was written", "statement": "For any encoded command list with steps within the PEC limit, reading the written stitch section gives the needle strikes and colour changes at the written positions.", "quantifier": "every command list of any length", "why_tests_cant": "The stream is self-delimiting only if every prefix is parsed in step with the writer.", "anchors": ["pyembroidery/PecWriter.py:pec_encode", "pyembroidery/PecReader.py:read_pec_stitches"]}
{"id": "C13", "title": "A U01 body reads back as the design that was written", "statement": "For any encoded command list within the U01 limits, reading the written body gives back the same stitches, jumps, trims, stops and needle changes at the same positions.", "quantifier": "every command list of any length; every needle number the format can hold", "why_tests_cant": "Sign/magnitude bytes and pending fast/slow flags make the record depend on history.", "anchors": ["pyembroidery/U01Writer.py:write", "pyembroidery/U01Reader.py:read"]}
{"id": "C14", "title": "A TBF body reads back as the design that was written", "statement": "For any encoded command list within the TBF limits, reading the written stitch section gives back the same stitches, jumps, trims, stops and needle changes at the same positions.", "quantifier": "every command list of any length", "why_tests_cant": "Unbounded histories and all displacement byte values.", "anchors": ["pyembroidery/TbfWriter.py:write", "pyembroidery/TbfReader.py:read"]}
{"id": "C15", "title": "An XXX body reads back as the design that was written", "statement": "For any encoded command list within the XXX limit (124), reading the written stitch section gives back the same stitches, jumps, trims and colour changes at the same positions.", "quantifier": "every command list of any length with steps within the writer's advertised maximum", "why_tests_cant": "Only displacements at the exact boundary of the short form behave differently.", "anchors": ["pyembroidery/XxxWriter.py:write", "pyembroidery/XxxReader.py:read"]}
{"id": "C16", "title": "A VP3 colour block reads back as the stitches that were written", "statement": "For any block of stitches, decoding the bytes the VP3 writer emits for it gives the same stitch positions.", "quantifier": "every stitch block of any length, every displacement that fits 16 bits", "why_tests_cant": "Short (8-bit) and long (16-bit) forms alternate; the boundary values are easily missed.", "anchors": ["pyembroidery/Vp3Writer.py:write_stitches_block", "pyembroidery/Vp3Reader.py:read"]}
{"id": "C17", "title": "expand undoes compress", "statement": "expand(compress(data)) returns data for every byte string.", "quantifier": "every byte string of every length", "why_tests_cant": "compress emits one hand-made Huffman header; whether expand agrees depends on the length (block size field, empty input), and the repository's test for it is commented out.", "anchors": ["pyembroidery/EmbCompress.py:compress", "pyembroidery/EmbCompress.py:expand", "pyembroidery/EmbCompress.py:Huffman"]}
{"id": "C18", "title": "Rounding to file units never accumulates", "statement": "When fractional positions are written to an integer format, after every record the position reconstructed from the written integer displacements differs from the true position by at most 1/2 on each axis, however long the design is.", "quantifier": "every sequence of rational positions, every length", "why_tests_cant": "Drift shows only over long sequences; the claim is about all of them.", "anchors": ["pyembroidery/ExpWriter.py:write", "pyembroidery/DstWriter.py:write", "pyembroidery/JefWriter.py:write", "pyembroidery/PecWriter.py:pec_encode", "pyembroidery/XxxWriter.py:write", "pyembroidery/TbfWriter.py:write", "pyembroidery/U01Writer.py:write"]}
{"id": "C19", "title": "Encoding with a format's own settings never produces a step the format cannot hold", "statement": "For every source pattern (without in-pattern overrides of the limits), after encoding with a format's max_stitch = max_jump = M and rounding on, every integer displacement the writer computes is within [-M, M]; hence the DST writer never raises and no byte-sized displacement wraps.", "quantifier": "every source pattern, every middle-level command mixture, every matrix setting", "why_tests_cant": "Gap subdivision produces fractional positions that are rounded later by another component; whether M+1 can ever appear depends on all combinations of both.", "anchors": ["pyembroidery/EmbEncoder.py:Transcoder.interpolate_gap_stitches", "pyembroidery/EmbEncoder.py:Transcoder.transcode_main", "pyembroidery/DstWriter.py:write", "pyembroidery/ExpWriter.py:write"]}
{"id": "C20", "title": "A normalized pattern ends with END and contains it nowhere else", "statement": "get_normalized_pattern returns a pattern whose last command is END and that has no other END, whatever follows END in the source and whether or not the source has one.", "quantifier": "every source pattern and every encoder setting", "why_tests_cant": "Quantifies over all command sequences.", "anchors": ["pyembroidery/EmbEncoder.py:Transcoder.transcode_main", "pyembroidery/EmbPattern.py:get_normalized_pattern"]}
{"id": "C21", "title": "A normalized pattern contains only low-level commands", "statement": "Every command in the result of get_normalized_pattern has as its low byte one of STITCH, JUMP, TRIM, STOP, END, COLOR_CHANGE, NEEDLE_SET, SEQUIN_MODE, SEQUIN_EJECT, SLOW, FAST.", "quantifier": "every source pattern and every encoder setting", "why_tests_cant": "Quantifies over all command sequences and settings changes made on the fly.", "anchors": ["pyembroidery/EmbEncoder.py:Transcoder.transcode_main"]}
{"id": "C22", "title": "Encoded steps respect the maximum length", "statement": "With max_stitch = max_jump = M, consecutive positions of the normalized pattern (starting from the origin) never differ by more than M on either axis, unless the source disables the long-stitch contingency or changes the limits itself.", "quantifier": "every source pattern, every M > 0, every contingency setting", "why_tests_cant": "Invariant of a state machine over unbounded inputs.", "anchors": ["pyembroidery/EmbEncoder.py:Transcoder.interpolate_gap_stitches", "pyembroidery/EmbEncoder.py:Transcoder.jump_to_within_stitchrange", "pyembroidery/EmbEncoder.py:Transcoder.needle_to", "pyembroidery/EmbEncoder.py:Transcoder.sew_to"]}
{"id": "C23", "title": "Subdividing a long gap follows the straight line and stops within reach", "statement": "When a move is longer than the limit, the inserted steps are equally spaced on the segment, each at most the limit on both axes, there are as few of them as possible, and the remaining distance is at most the limit; when the move is within the limit nothing is inserted.", "quantifier": "every pair of points and every positive limit", "why_tests_cant": "Continuous input space; boundary at exact multiples of the limit.", "anchors": ["pyembroidery/EmbEncoder.py:Transcoder.interpolate_gap_stitches"]}
{"id": "C24", "title": "Encoding neither loses nor invents needle penetrations", "statement": "With the default contingencies (long stitches jump, sequins become jumps, no tie-on/tie-off), the sequence of STITCH positions in the normalized pattern is exactly the sequence of (transformed) positions of STITCH, NEEDLE_AT and SEW_TO commands before END in the source (SEW_TO within the limit), plus one strike where a sequin starts a thread.", "quantifier": "every source pattern", "why_tests_cant": "A lost or duplicated stitch may depend on a rare combination of trims, breaks and colour changes.", "anchors": ["pyembroidery/EmbEncoder.py:Transcoder.transcode_main", "pyembroidery/EmbEncoder.py:Transcoder.stitch_at"]}
{"id": "C25", "title": "Sequin mode is on exactly where sequins are ejected", "statement": "In a normalized pattern no JUMP and no TRIM occurs while sequin mode is on (an odd number of SEQUIN_MODE commands so far), and every SEQUIN_EJECT occurs while it is on; a DST reader therefore never mistakes a jump for a sequin or vice versa.", "quantifier": "every source pattern and setting, including contingency changes in mid-pattern", "why_tests_cant": "Depends on the whole history of toggles.", "anchors": ["pyembroidery/EmbEncoder.py:Transcoder.toggle_sequins", "pyembroidery/EmbEncoder.py:Transcoder.jump_at", "pyembroidery/EmbEncoder.py:Transcoder.trim_here", "pyembroidery/EmbEncoder.py:Transcoder.sequin_at"]}
{"id": "C26", "title": "Commands that do not move are emitted at the needle's position", "statement": "In a normalized pattern every TRIM, STOP, END, COLOR_CHANGE, NEEDLE_SET, SEQUIN_MODE, SLOW and FAST carries the same coordinates as the command before it (the origin if first), so formats that store no displacement for them lose nothing.", "quantifier": "every source pattern and setting", "why_tests_cant": "State-machine invariant over all histories; a single missed needle update shifts the rest of a written design.", "anchors": ["pyembroidery/EmbEncoder.py:Transcoder.add", "pyembroidery/EmbEncoder.py:Transcoder.add_thread_change", "pyembroidery/EmbEncoder.py:Transcoder.lock_stitch"]}
{"id": "C27", "title": "Planning colour changes never fails and matches the changes made", "statement": "Normalizing never raises KeyError for a missing planned change, and in COLOR_CHANGE mode the number of threads in the result is the number of colour changes in it plus one as soon as anything is stitched (or a change is made).", "quantifier": "every source pattern mixing COLOR_CHANGE, NEEDLE_SET, COLOR_BREAK and SET_CHANGE_SEQUENCE", "why_tests_cant": "Two separate passes over the source must count events the same way for every sequence.", "anchors": ["pyembroidery/EmbEncoder.py:Transcoder.get_as_thread_change_sequence_events", "pyembroidery/EmbEncoder.py:Transcoder.build_thread_change_sequence", "pyembroidery/EmbEncoder.py:Transcoder.next_change_sequence"]}
{"id": "C28", "title": "COLOR_BREAK before the first stitch or after the last stitch does nothing visible", "statement": "A COLOR_BREAK with nothing stitched before it, or with no stitching command after it (before END), produces no colour change; one between two stitching commands produces a colour change.", "quantifier": "every source pattern", "why_tests_cant": "Depends on the unbounded prefix and suffix around the command.", "anchors": ["pyembroidery/EmbEncoder.py:Transcoder.color_break", "pyembroidery/EmbEncoder.py:Transcoder.lookahead_stitch"]}
{"id": "C29", "title": "Trims are never repeated and never precede sewing", "statement": "In a normalized pattern between two TRIM commands there is at least one STITCH, and a STITCH precedes the first TRIM.", "quantifier": "every source pattern and setting", "why_tests_cant": "History-dependent; quantifies over all command sequences.", "anchors": ["pyembroidery/EmbEncoder.py:Transcoder.trim_here", "pyembroidery/EmbEncoder.py:Transcoder.tie_off_and_trim_if_needed"]}
{"id": "C30", "title": "Colours are used in the stated order", "statement": "Without explicit indices the k-th colour of the normalized pattern is the k-th thread of the source; an explicit thread index on a change, or a SET_CHANGE_SEQUENCE with an order, selects exactly that thread for that change.", "quantifier": "every source pattern, thread list and change sequence", "why_tests_cant": "The plan is an insertion-ordered dictionary filled by several commands; interactions are combinatorial.", "anchors": ["pyembroidery/EmbEncoder.py:Transcoder.build_thread_change_sequence", "pyembroidery/EmbEncoder.py:Transcoder.next_change_sequence"]}
{"id": "C31", "title": "Automatically assigned needles are real needles", "statement": "When needles are assigned by the encoder they lie between 1 and needle_count and cycle through all of them.", "quantifier": "every number of changes and every needle_count >= 1", "why_tests_cant": "Modular arithmetic at wrap-around, for all counts.", "anchors": ["pyembroidery/EmbEncoder.py:Transcoder.build_thread_change_sequence"]}
{"id": "C32", "title": "Tie-on and tie-off stitches return to the needle and stay within the limit", "statement": "A lock emits four stitches, all on the segment from the needle towards the neighbouring stitch and no farther than max_stitch, and the last is at the needle position, so tie-ons do not displace anything.", "quantifier": "all positions, all anchors, all limits", "why_tests_cant": "Continuous input space.", "anchors": ["pyembroidery/EmbEncoder.py:Transcoder.lock_stitch", "pyembroidery/EmbEncoder.py:Transcoder.tie_on", "pyembroidery/EmbEncoder.py:Transcoder.tie_off"]}
{"id": "C33", "title": "Normalizing is idempotent on core patterns", "statement": "Normalizing a normalized pattern with the same settings (transforms aside) gives the same commands again.", "quantifier": "every source pattern without explicit thread indices", "why_tests_cant": "A property of all fixed points of a state machine.", "anchors": ["pyembroidery/EmbEncoder.py:Transcoder.transcode_main"]}
{"id": "C34", "title": "translate, scale and on-the-fly matrix commands mean what they say", "statement": "Encoding with translate t / scale s moves every stitch p to s*p + t-style images in the documented order; MATRIX_SCALE and MATRIX_ROTATE keep the current needle position fixed; MATRIX_RESET restores the identity; later stitches only are affected.", "quantifier": "every source pattern and transform", "why_tests_cant": "Composition order and inversion only show on combinations.", "anchors": ["pyembroidery/EmbEncoder.py:Transcoder.__init__", "pyembroidery/EmbEncoder.py:Transcoder.transcode_main", "pyembroidery/EmbMatrix.py"]}
{"id": "C35", "title": "Matrix products compose transformations", "statement": "Applying a product of affine matrices (the only ones the operations of the library make) to a point equals applying the factors one after the other, multiplication is associative with the identity as unit, and translating/scaling helpers equal multiplication by the corresponding matrix.", "quantifier": "all matrices and points", "why_tests_cant": "Nine-entry formulas; a swapped index only shows on generic matrices.", "anchors": ["pyembroidery/EmbMatrix.py:EmbMatrix"]}
{"id": "C36", "title": "Matrix inversion inverts", "statement": "For every invertible matrix, inverse() gives a matrix whose product with the original (both orders) is the identity; inverting twice restores the original; for affine matrices (last column 0, 0, 1; the only ones the operations of the library make) mapping a point there and back returns it.", "quantifier": "all matrices with non-zero determinant", "why_tests_cant": "Adjugate formula has nine cofactors; sign errors are invisible on diagonal examples.", "anchors": ["pyembroidery/EmbMatrix.py:EmbMatrix.inverse"]}
{"id": "C37", "title": "Scaling or rotating about a point keeps that point fixed", "statement": "post_scale(sx, sy, x, y) and post_rotate(theta, x, y) on an identity matrix leave (x, y) where it is, and pre-/post- variants differ only in the side of multiplication.", "quantifier": "all points and factors", "why_tests_cant": "Composition order of three matrices.", "anchors": ["pyembroidery/EmbMatrix.py:EmbMatrix.post_scale", "pyembroidery/EmbMatrix.py:EmbMatrix.post_rotate"]}
{"id": "C38", "title": "The nearest palette colour is nearest", "statement": "find_nearest_color_index returns an index whose entry exists and has minimal distance among all entries (the last such index), and None exactly when the palette has no entries. build_palette gives each thread, in order, that index.", "quantifier": "every colour and every palette with gaps", "why_tests_cant": "Quantifies over all palettes.", "anchors": ["pyembroidery/EmbThread.py:find_nearest_color_index", "pyembroidery/EmbThread.py:color_distance_red_mean"]}
{"id": "C39", "title": "Colour distance is a sensible measure", "statement": "The distance between colours is never negative, symmetric, and zero exactly when red, green and blue agree.", "quantifier": "all pairs of 24-bit colours", "why_tests_cant": "2^48 pairs; truncating shifts could make distinct colours coincide.", "anchors": ["pyembroidery/EmbThread.py:color_distance_red_mean"]}
{"id": "C40", "title": "A unique palette keeps different colours apart", "statement": "build_unique_palette maps threads of different colours to different palette indices whenever the palette is large enough, independent of the (unspecified) iteration order of the set it uses.", "quantifier": "every thread list, every palette, every set iteration order", "why_tests_cant": "Set iteration order varies between runs.", "anchors": ["pyembroidery/EmbThread.py:build_unique_palette"]}
{"id": "C41", "title": "A non-repeating palette never gives consecutive different threads the same colour", "statement": "build_nonrepeat_palette gives two consecutive different threads different palette indices (if the palette has at least two entries) and keeps the same index for a repeated thread.", "quantifier": "every thread list and palette", "why_tests_cant": "Depends on history: the palette is temporarily modified and restored.", "anchors": ["pyembroidery/EmbThread.py:build_nonrepeat_palette"]}
{"id": "C42", "title": "Thread colours survive hex notation", "statement": "hex_color() followed by parsing gives the same 24-bit colour; 3-digit hex expands to the 6-digit colour; get_red/green/blue are the bytes of the colour.", "quantifier": "all 2^24 colours", "why_tests_cant": "Exhaustive over colours, including leading zeros.", "anchors": ["pyembroidery/EmbThread.py:color_hex", "pyembroidery/EmbThread.py:EmbThread.hex_color", "pyembroidery/EmbThread.py:color_rgb"]}
{"id": "C43", "title": "bounds() is the tight bounding box", "statement": "For a non-empty pattern every stitch lies inside bounds() and each of the four sides is attained; translating the pattern shifts the bounds by the same amount.", "quantifier": "every non-empty pattern", "why_tests_cant": "Quantifies over all stitch lists.", "anchors": ["pyembroidery/EmbPattern.py:EmbPattern.bounds", "pyembroidery/EmbPattern.py:EmbPattern.translate", "pyembroidery/EmbPattern.py:EmbPattern.extents"]}
{"id": "C44", "title": "Centring puts the design's centre at the origin", "statement": "After move_center_to_origin the centre of the bounding box is within half a unit of the origin on both axes, and only positions change.", "quantifier": "every non-empty pattern", "why_tests_cant": "Rounding of the half-extent for all extents.", "anchors": ["pyembroidery/EmbPattern.py:EmbPattern.move_center_to_origin"]}
{"id": "C45", "title": "Command blocks partition the stitches", "statement": "Concatenating get_as_command_blocks gives exactly the stitches; within a block all commands agree in their low byte and neighbouring blocks differ.", "quantifier": "every pattern", "why_tests_cant": "Quantifies over all patterns.", "anchors": ["pyembroidery/EmbPattern.py:EmbPattern.get_as_command_blocks"]}
{"id": "C46", "title": "Colour blocks partition the stitches", "statement": "Concatenating get_as_colorblocks gives the stitches (COLOR_BREAK separators dropped), a new block starts exactly at each colour change, and the k-th block is paired with the thread that colours it.", "quantifier": "every pattern", "why_tests_cant": "Two overlapping cases (COLOR_BREAK, COLOR_CHANGE/NEEDLE_SET) with different inclusion rules over all histories.", "anchors": ["pyembroidery/EmbPattern.py:EmbPattern.get_as_colorblocks"]}
{"id": "C47", "title": "Stitch blocks contain all and only the stitches", "statement": "Concatenating the blocks of get_as_stitchblock gives exactly the STITCH commands in order; no block is empty; each block is paired with the thread current at that point.", "quantifier": "every pattern", "why_tests_cant": "Quantifies over all patterns.", "anchors": ["pyembroidery/EmbPattern.py:EmbPattern.get_as_stitchblock"]}
{"id": "C48", "title": "fix_color_count provides a thread for every colour", "statement": "After fix_color_count there is a thread for every colour block used, existing threads are kept in place, no more are added than needed, and running it again changes nothing.", "quantifier": "every pattern", "why_tests_cant": "Depends on the interleaving of stitches and colour changes.", "anchors": ["pyembroidery/EmbPattern.py:EmbPattern.fix_color_count"]}
{"id": "C49", "title": "Stops survive conversion to duplicate colours and back", "statement": "interpolate_stop_as_duplicate_color followed by interpolate_duplicate_color_as_stop restores the commands and threads when no two neighbouring colours were equal to begin with.", "quantifier": "every pattern with a thread for each colour and no equal neighbours", "why_tests_cant": "Both passes edit the lists while walking over them.", "anchors": ["pyembroidery/EmbPattern.py:EmbPattern.interpolate_stop_as_duplicate_color", "pyembroidery/EmbPattern.py:EmbPattern.interpolate_duplicate_color_as_stop"]}
{"id": "C50", "title": "Inferring trims never touches sewing", "statement": "interpolate_trims keeps the sequence of stitches, sequins, colour changes and needle changes with their positions unchanged; it only inserts TRIMs and removes jump runs that go nowhere. (Stops and other commands should be kept as well.)", "quantifier": "every pattern and every combination of its three parameters", "why_tests_cant": "The loop edits the list under its own index; unbounded histories.", "anchors": ["pyembroidery/EmbPattern.py:EmbPattern.interpolate_trims"]}
{"id": "C51", "title": "get_pattern_merge_jumps replaces every run of jumps by one STITCH_BREAK", "statement": "In the result every maximal run of JUMP commands of the source is replaced by a single STITCH_BREAK and everything else is kept in order.", "quantifier": "every pattern", "why_tests_cant": "A flag that is never reset only shows from the second run on.", "anchors": ["pyembroidery/EmbPattern.py:EmbPattern.get_pattern_merge_jumps"]}
{"id": "C52", "title": "get_pattern_interpolate_trim keeps every non-jump command and adds trims only at long jump runs", "statement": "Non-jump commands appear unchanged and in order; a trim is added exactly before jump runs of at least the given length.", "quantifier": "every pattern and threshold", "why_tests_cant": "Lookahead inside a generator-like loop over all histories.", "anchors": ["pyembroidery/EmbPattern.py:EmbPattern.get_pattern_interpolate_trim"]}
{"id": "C53", "title": "A copy is independent of the original", "statement": "Mutating a copy (copy(), or the sum p + q) through any pattern method does not change the original patterns.", "quantifier": "every pattern and every mutating method", "why_tests_cant": "Aliasing of the inner lists: independence must hold for all methods and histories.", "anchors": ["pyembroidery/EmbPattern.py:EmbPattern.copy", "pyembroidery/EmbPattern.py:EmbPattern.__add__", "pyembroidery/EmbPattern.py:EmbPattern.add_pattern", "pyembroidery/EmbPattern.py:EmbPattern.translate"]}
{"id": "C54", "title": "Encoding and saving never modify the pattern", "statement": "After get_normalized_pattern or a write, the source pattern's stitches and threads are unchanged, also if the result is modified later.", "quantifier": "every pattern, every setting, every later modification of the result's stitches", "why_tests_cant": "Aliasing between source and destination for all inputs.", "anchors": ["pyembroidery/EmbEncoder.py:Transcoder.transcode", "pyembroidery/EmbPattern.py:EmbPattern.get_normalized_pattern"]}
{"id": "C55", "title": "Relative and absolute stitch entry agree", "statement": "Adding stitches by displacement gives the running sums as absolute positions; add_command does not move the current position; inserting a relative stitch places it relative to the stitch at that index and shifts no other.", "quantifier": "every sequence of calls", "why_tests_cant": "Stateful position tracking over unbounded call sequences.", "anchors": ["pyembroidery/EmbPattern.py:EmbPattern.add_stitch_relative", "pyembroidery/EmbPattern.py:EmbPattern.add_stitch_absolute", "pyembroidery/EmbPattern.py:EmbPattern.insert_stitch_relative", "pyembroidery/EmbPattern.py:EmbPattern.add_command"]}
{"id": "C56", "title": "Adding one pattern to another appends it", "statement": "p += q appends the stitches of q after those of p (ends and redundant colour changes neutralised) and the threads of q after those of p; it works for every pair of patterns.", "quantifier": "every pair of patterns, including empty ones", "why_tests_cant": "Special cases for empty lists and equal threads.", "anchors": ["pyembroidery/EmbPattern.py:EmbPattern.add_pattern", "pyembroidery/EmbPattern.py:EmbPattern.__iadd__"]}
{"id": "C57", "title": "A stable pattern contains only stitches and breaks", "statement": "get_stable_pattern yields only STITCH, COLOR_BREAK/COLOR_CHANGE-level breaks and SEQUENCE_BREAK commands, and its stitches are those of the source in order.", "quantifier": "every pattern", "why_tests_cant": "Quantifies over all patterns.", "anchors": ["pyembroidery/EmbPattern.py:EmbPattern.get_stable_pattern", "pyembroidery/EmbPattern.py:EmbPattern.add_stitchblock"]}
{"id": "C58", "title": "CSV and JSON name every command reversibly", "statement": "For every command value of a pattern, the name written to CSV/JSON (with thread, needle and order suffixes) is read back as the same command value.", "quantifier": "every command constant and every thread/needle/order combination", "why_tests_cant": "Requires the name table to be complete and injective and number parsing to be exact, for all values.", "anchors": ["pyembroidery/CsvWriter.py:decoded_name", "pyembroidery/CsvReader.py", "pyembroidery/JsonWriter.py:decoded_name", "pyembroidery/JsonReader.py", "pyembroidery/EmbFunctions.py:get_command_dictionary", "pyembroidery/EmbFunctions.py:get_common_name_dictionary"]}
{"id": "C59", "title": "Colour-only files keep the colours", "statement": "Writing the thread list as EDR, COL or INF and reading it back gives the same number of threads with the same 24-bit colours in the same order.", "quantifier": "every thread list (ASCII descriptions for INF)", "why_tests_cant": "List length and all 2^24 colours per entry; length fields computed from text.", "anchors": ["pyembroidery/EdrWriter.py:write", "pyembroidery/EdrReader.py:read", "pyembroidery/ColWriter.py:write", "pyembroidery/ColReader.py:read", "pyembroidery/InfWriter.py:write", "pyembroidery/InfReader.py:read"]}
{"id": "C60", "title": "Readers accept every byte string", "statement": "Reading any byte string whatsoever with the simple stitch readers terminates, consumes no more than the input, yields at most a bounded number of commands per byte, and ends the pattern with END.", "quantifier": "every byte string", "why_tests_cant": "Fuzzing samples; the claim is about all inputs, including truncated ones.", "anchors": ["pyembroidery/ExpReader.py:read_exp_stitches", "pyembroidery/DstReader.py:dst_read_stitches", "pyembroidery/KsmReader.py", "pyembroidery/DsbReader.py", "pyembroidery/DszReader.py", "pyembroidery/EmdReader.py", "pyembroidery/BroReader.py", "pyembroidery/U01Reader.py", "pyembroidery/NewReader.py", "pyembroidery/ZxyReader.py", "pyembroidery/InbReader.py"]}
{"id": "C61", "title": "Nested output of the generic writer is balanced", "statement": "For an encoded pattern the generic writer's start and end texts (document, pattern, colour, block) are properly nested and each start is matched by its end.", "quantifier": "every normalized pattern", "why_tests_cant": "The open/close flags form a state machine over all histories.", "anchors": ["pyembroidery/GenericWriter.py:GenericWriter"]}
{"id": "C62", "title": "Line rasterisation reaches its end point", "statement": "draw_line in the PNG writer terminates for all end points, plots connected pixels from start to end, and never asks for a gradient outside [0,1].", "quantifier": "all pairs of integer points", "why_tests_cant": "Loop termination and exact arrival for all slopes.", "anchors": ["pyembroidery/PngWriter.py:draw_line"]}
{"id": "C63", "title": "PEC thumbnails: bits mark exactly their pixel", "statement": "Marking or unmarking a pixel changes that pixel and no other, and the text rendering shows exactly the marked pixels.", "quantifier": "every bitmap and every coordinate inside it", "why_tests_cant": "Bit arithmetic across all positions.", "anchors": ["pyembroidery/PecGraphics.py:graphic_mark_bit", "pyembroidery/PecGraphics.py:graphic_unmark_bit", "pyembroidery/PecGraphics.py:get_graphic_as_string"]}
{"id": "C64", "title": "Files are dispatched by extension and unknown ones are refused", "statement": "Reading and writing choose the format whose extension equals the file's extension ignoring case; writing to an unknown or read-only extension raises IOError; reading an unknown one returns None.", "quantifier": "every file name", "why_tests_cant": "All strings; case and multi-dot names.", "anchors": ["pyembroidery/EmbPattern.py:EmbPattern.static_read", "pyembroidery/EmbPattern.py:EmbPattern.static_write", "pyembroidery/EmbPattern.py:EmbPattern.supported_formats"]}
{"id": "C65", "title": "User settings win over format defaults and are left unmodified", "statement": "write_embroidery uses the caller's value for every setting the caller gives, the format's value for the rest, and does not change the caller's dictionary.", "quantifier": "every settings dictionary and every writer", "why_tests_cant": "All key combinations; aliasing of the dictionary.", "anchors": ["pyembroidery/EmbPattern.py:EmbPattern.write_embroidery"]}
{"id": "C66", "title": "Binary headers place the data where readers look for it", "statement": "XXX, TBF and U01 writers emit headers of the exact fixed size whatever the pattern, so the stitch section starts where the reader seeks to.", "quantifier": "every pattern, name and extents", "why_tests_cant": "Sizes are computed from variable parts.", "anchors": ["pyembroidery/XxxWriter.py:write", "pyembroidery/TbfWriter.py:write", "pyembroidery/U01Writer.py:write"]}
{"id": "C67", "title": "interpolate_frame_eject recovers frame-out stops", "statement": "interpolate_frame_eject replaces each stop surrounded by jumps by one FRAME_EJECT at the position of the stop and keeps every stitch and colour change.", "quantifier": "every pattern", "why_tests_cant": "Windowed matching over all histories.", "anchors": ["pyembroidery/EmbPattern.py:EmbPattern.interpolate_frame_eject"]}
{"id": "C68", "title": "The reader finds the parts of a PEC file where the writer put them", "statement": "Reading a PEC file finds exactly the colour indices, stitch section and thumbnails that were written, whatever the name, number of colours and length of the design.", "quantifier": "every name, colour list and design", "why_tests_cant": "Offsets depend on the encoded length of a user-supplied name, the colour count and a back-patched length.", "anchors": ["pyembroidery/PecWriter.py:write_pec_header", "pyembroidery/PecWriter.py:write_pec_block", "pyembroidery/PecReader.py:read_pec"]}
{"id": "C69", "title": "Header fields describe the design", "statement": "The stitch count, colour count, extents and end position that a reader finds at the fixed places of the DST, XXX and U01 headers are those of the design that was written.", "quantifier": "every design whose values fit the fields", "why_tests_cant": "Values at all magnitudes and signs; labels, padding and byte positions.", "anchors": ["pyembroidery/DstWriter.py:write", "pyembroidery/XxxWriter.py:write_xxx_header_b", "pyembroidery/U01Writer.py:write"]}
{"id": "C70", "title": "A CSV file gives the design back", "statement": "Writing a design as CSV and reading it back gives the same stitches with the same commands and positions, the same metadata and the same threads.", "quantifier": "every design, every text", "why_tests_cant": "All strings in quoted fields, all numbers, all commands, three versions of the file.", "anchors": ["pyembroidery/CsvWriter.py:write", "pyembroidery/CsvReader.py:read"]}
{"id": "C71", "title": "A JSON file gives the design back", "statement": "Writing a design as JSON and reading it back gives the same stitches, metadata and threads.", "quantifier": "every design", "why_tests_cant": "All command words and all texts.", "anchors": ["pyembroidery/JsonWriter.py:write", "pyembroidery/JsonReader.py:read"]}
{"id": "C72", "title": "The generic writer writes the design's commands in order, with true positions", "statement": "The segments a generic text writer writes are exactly the commands for which a text is configured, in the order of the pattern; the displacement given with each is relative to the last written one, so that the displacements add up to the position; the integer position is within half a unit of it; and the depth grows with every stitch.", "quantifier": "every pattern, every choice of texts", "why_tests_cant": "Which command is written depends on lookups, and positions on the whole history of written commands.", "anchors": ["pyembroidery/GenericWriter.py:GenericWriter.write", "pyembroidery/GenericWriter.py:GenericWriter.update_positions"]}
{"id": "C73", "title": "The PNG picture shows the stitches where they are", "statement": "A pixel of the written picture differs from the background exactly where a line between consecutive stitches of a block, drawn with the line width, covers it, and then has the colour of the last thread that covers it; nothing is drawn outside of its row, and the picture is as large as the design plus the margin.", "quantifier": "every pattern, every line width up to the margin", "why_tests_cant": "Flat buffer indices with Python negative indices; all positions and sizes.", "anchors": ["pyembroidery/PngWriter.py:PngBuffer.plot", "pyembroidery/PngWriter.py:PngBuffer.line_for_point", "pyembroidery/PngWriter.py:write"]}
{"id": "C74", "title": "An added pattern is sewn turned, scaled and moved as asked", "statement": "Adding a pattern to another with an offset, a scale and a rotation, and then normalizing the result, sews the first pattern where it was and the added one rotated by the given angle, scaled by the given factors and moved by the given offset; nothing of either is lost or sewn twice.", "quantifier": "every pair of patterns, every offset, scale and rotation", "why_tests_cant": "The placement is done by commands put between the patterns and only interpreted by the encoder, from where the needle happens to be.", "anchors": ["pyembroidery/EmbPattern.py:EmbPattern.add_pattern", "pyembroidery/EmbEncoder.py:Transcoder.transcode_main"]}
{"id": "C75", "title": "The singleton thread list keeps one thread per run of equal threads", "statement": "get_singleton_threadlist() returns the threads in order with consecutive equal ones reduced to the first of them.", "quantifier": "every pattern", "why_tests_cant": "Runs of any length, equality of threads that are distinct objects.", "anchors": ["pyembroidery/EmbPattern.py:EmbPattern.get_singleton_threadlist"]}
{"id": "C76", "title": "Compressed stitch data of HUS and VIP files written by another program is expanded to what was compressed", "statement": "expand(), given data made of blocks of Huffman-coded bytes and copies as the format describes (three tables of code lengths per block, canonical codes, distances with extra bits), returns exactly the bytes the tokens stand for, whatever the tables, the number of blocks and the filling bits after the end.", "quantifier": "every sequence of valid blocks", "why_tests_cant": "A bit-level decoder with table-driven codes: any code lengths, any block boundaries within bytes, copies that overlap themselves.", "anchors": ["pyembroidery/EmbCompress.py:EmbCompress.decompress", "pyembroidery/EmbCompress.py:expand", "pyembroidery/EmbCompress.py:Huffman.build_table", "pyembroidery/EmbCompress.py:Huffman.lookup"]}
{"id": "C77", "title": "A DST file keeps the name of the design, and an extended header its author, copyright notice and threads", "statement": "Reading a written DST file gives back the design's name (Untitled if it has none), and with the extended header also the author, the copyright notice and, for each thread in order, its colour, description and catalogue number; the numbers in the header appear as texts under their labels; the stitches are those of the file; whatever follows the header does not matter.", "quantifier": "every pattern whose texts fit into the header, are single lines and have no blanks at their ends, and whose thread texts have no commas", "why_tests_cant": "All texts, in any script, of any length that fits, and any number of threads; lines found by bytes and decoded as UTF-8.", "anchors": ["pyembroidery/DstReader.py:dst_read_header", "pyembroidery/DstReader.py:process_header_info", "pyembroidery/DstWriter.py:write"]}
{"id": "C78", "title": "A PEC file gives back the design: label, stitches, stops, one palette thread per thread, and thumbnails", "statement": "Reading a written PEC file gives the first eight characters of the name, the stitches of the design with its stops as stops, exactly one thread for each thread of the design, taken from the Brother palette, two of them equal exactly if the originals have the same colour and with the original colour if all colours are palette colours, and the thumbnails in order, the first for the whole design and the others with the threads.", "quantifier": "every encoded pattern with 1 to 255 threads of at most 64 distinct colours, every iteration order of the thread set", "why_tests_cant": "Stops are written as duplicated threads and recognised again by equal neighbours, the palette assignment depends on the iteration order of a set, and offsets depend on the lengths of all parts.", "anchors": ["pyembroidery/PecWriter.py:write", "pyembroidery/PecWriter.py:write_pec", "pyembroidery/PecWriter.py:write_pec_graphics", "pyembroidery/PecReader.py:read", "pyembroidery/PecReader.py:read_pec", "pyembroidery/PecReader.py:map_pec_colors", "pyembroidery/EmbThreadPec.py:get_thread_set"]}
{"id": "C79", "title": "A PES file gives back the design", "statement": "A version 1 PES file, truncated or not, is read exactly as the PEC file of the same design. A version 6 PES file, truncated or not, gives back name, author, category, keywords and comments, every thread with its exact colour, description, brand, chart and catalog number, the label, the stitches with stops as stops, and the thumbnails.", "quantifier": "version 1: every pattern; version 6: every encoded pattern, every text shorter than 256 characters, every setting of truncated", "why_tests_cant": "The position of the PEC part depends on the lengths of all texts, threads and segments; stops are written as doubled threads and recovered by comparing neighbours.", "anchors": ["pyembroidery/PesWriter.py:write", "pyembroidery/PesWriter.py:write_version_1", "pyembroidery/PesWriter.py:write_version_6", "pyembroidery/PesWriter.py:write_pes_header_v6", "pyembroidery/PesReader.py:read", "pyembroidery/PesReader.py:read_pes_header_version_6"]}
{"id": "C80", "title": "The segments in a PES file draw the design", "statement": "The CEmbOne and CSewSeg blocks of an untruncated PES file contain sections which, read by a parser of the block layout, are exactly the stitches of the design at their places and the jumps from stitch to stitch, each in the colour of its thread; the block states the width and height of the design, and the colour list has an entry for exactly the sections whose colour differs from that of the one before.", "quantifier": "every pattern with whole coordinates up to 32767, without two colour changes in a row, and every thread list", "why_tests_cant": "Sections are a regrouping of the stitches by command runs with coordinates relative to a corner; the library never reads them, so a round trip test does not see them.", "anchors": ["pyembroidery/PesWriter.py:write_pes_blocks", "pyembroidery/PesWriter.py:write_pes_sewsegheader", "pyembroidery/PesWriter.py:get_as_segments_blocks", "pyembroidery/PesWriter.py:write_pes_embsewseg_segments"]}
{"id": "C81", "title": "A G-code file gives back the design", "statement": "Reading a G-code file written by the library gives, for every command up to the first one the writer does not know, the stitches mirrored in both axes (the writer's encoder mirrors them before, so that a saved pattern comes back unmirrored), colour changes and stops as colour changes and ends, all at the place of the needle, and every thread with its colour, without exception. Positions are kept to a hundredth of a unit, whole ones exactly.", "quantifier": "every pattern and every setting of stitch_z_travel, with texts that do not contain a closing bracket, a line end or the word Thread", "why_tests_cant": "The reader parses bytes one at a time with state carried across lines, comments and numbers; numbers pass through decimal text with rounding; every text of the pattern is embedded in the same stream.", "anchors": ["pyembroidery/GcodeWriter.py:write", "pyembroidery/GcodeWriter.py:write_data", "pyembroidery/GcodeWriter.py:write_threads", "pyembroidery/GcodeReader.py:parse", "pyembroidery/GcodeReader.py:read"]}
{"id": "C82", "title": "An SVG file draws the design", "statement": "Parsing the paths of a written SVG file gives one line for each run of stitches, with exactly the positions of its stitches and the colour of the thread in use; together the lines hold every stitch once, in order. The view box is the bounding box of the design. For a saved pattern the corners are the points at which the source sews (C24), in order; for plain stitching these are the sewing commands of the source, unmoved.", "quantifier": "every pattern and thread list", "why_tests_cant": "The library cannot read SVG, so no round trip test sees the file; the claim is about the concatenation of all generated markup.", "anchors": ["pyembroidery/SvgWriter.py:create_svg_dom", "pyembroidery/SvgWriter.py:write", "pyembroidery/EmbPattern.py:EmbPattern.get_as_stitchblock"]}
{"id": "C83", "title": "A TXT file lists the design", "statement": "In the normal form every command has one line with its position to one decimal, its name and its number, and the colour of the thread in use. In the mimicking form every command has one line with its position in mm, the number of colour changes so far and its flag bits; other commands make writing fail with KeyError.", "quantifier": "every pattern of low-level commands", "why_tests_cant": "The colour column depends on the whole history of colour changes; the library cannot read the format.", "anchors": ["pyembroidery/TxtWriter.py:write", "pyembroidery/TxtWriter.py:write_normal", "pyembroidery/TxtWriter.py:write_mimic"]}
{"id": "C84", "title": "PMV files keep up to 100 points", "statement": "A pattern whose stitches and jumps come first is written to a PMV file that reads back as the first 100 of them, as stitches, and an END. Each is within 0.125 mm horizontally, without drift, and vertically within 0.125 mm of its distance from the middle of the design, reduced to fit 7 mm if the design is higher. The tables after the points give their own length; the width table has one row for a design without height and otherwise 15, each multiple of 0.5 mm with its share of 2000 over the height of the points.", "quantifier": "every list of points with horizontal steps of at most 7.5 mm, every rest", "why_tests_cant": "The rounding must not add up over 100 points and the vertical factor depends on the extremes of the whole design; tests read one file.", "anchors": ["pyembroidery/PmvWriter.py:write", "pyembroidery/PmvReader.py:read", "pyembroidery/PmvReader.py:read_pmv_stitches"]}
{"id": "C85", "title": "HUS files are read as what they record", "statement": "A HUS file whose header announces the three streams and whose streams are compressed forms of the command codes and of the displacements of a list of events is read as exactly those stitches, jumps, colour changes and trims at the accumulated positions, then END, with the threads of the Husqvarna table in the order of the header.", "quantifier": "every list of events, every compressed form of the streams, every header text, gap and rest", "why_tests_cant": "The library has no HUS writer, so there is no round trip test; the claim is about all compressed forms of unbounded streams.", "anchors": ["pyembroidery/HusReader.py:read", "pyembroidery/EmbCompress.py:expand", "pyembroidery/EmbThreadHus.py:get_thread_set"]}
{"id": "C86", "title": "TAP, EXY, STX, PHB and PHC files hold the stitches of another format", "statement": "The stitch records of a DST file read as TAP (no header) or EXY (256 bytes before) show what was sewn; those of an EXP file at the place given in an STX header show the design; a PHB or PHC file whose offsets lead to PEC stitch records is read as those stitches, with the threads of the Brother table in the order of its colour bytes, stops where the same colour follows itself, and for PHC the graphics.", "quantifier": "every encoded pattern, every file with the layout", "why_tests_cant": "No writer exists for these formats; the chains of offsets range over all files.", "anchors": ["pyembroidery/TapReader.py:read", "pyembroidery/ExyReader.py:read", "pyembroidery/StxReader.py:read", "pyembroidery/PhbReader.py:read", "pyembroidery/PhcReader.py:read"]}
{"id": "C87", "title": "An SHV file is read as the design its tables describe", "statement": "Reading an SHV file with at least one colour gives the name in its header, the threads of the 43-colour table in the order of its colour bytes (modulo 43), and the stitches of its records: points relative to the one before, long moves after which points are jumps until the record that ends them, with a colour change exactly where the announced number of stitches of each colour is used up, then END.", "quantifier": "every name, preview size, list of colours and list of non-empty stitch blocks", "why_tests_cant": "No writer exists for SHV, and the counts, the table and the preview size interact over all files.", "anchors": ["pyembroidery/ShvReader.py:read", "pyembroidery/EmbThreadShv.py:get_thread_set"]}
{"id": "C88", "title": "The records of each small stitch format are read as the commands they record", "statement": "For DSB, DSZ, FXY, GT, NEW, INB, 10O, STC, ZXY, DAT (Barudan and Sunstar), EMD, 100, JPX, SEW, BRO, SPX, MIT, KSM, ZHS, PCD/PCQ/PCS, PCM and MAX: reading the stitch data of a file gives the recorded commands in order, every stitch and jump at the position reached by adding the displacements recorded so far (for PC formats at the recorded position times 5/3), and END.", "quantifier": "every list of commands whose displacements fit the format's record, every number of them, and every way the data may end", "why_tests_cant": "Each format has its own record layout and sign bits; no writer exists for any of them, so no round trip can be tested, and sample files touch few of the records.", "anchors": ["pyembroidery/DsbReader.py:read", "pyembroidery/DszReader.py:read", "pyembroidery/FxyReader.py:read", "pyembroidery/GtReader.py:read", "pyembroidery/NewReader.py:new_stitch_encoding_read", "pyembroidery/InbReader.py:read_inb_stitches", "pyembroidery/A10oReader.py:read_10o_sttiches", "pyembroidery/StcReader.py:stc_stitch_encoding_read", "pyembroidery/ZxyReader.py:read_zxy_stitches", "pyembroidery/DatReader.py:read", "pyembroidery/EmdReader.py:read_emd_stitches", "pyembroidery/A100Reader.py:read_100_stitches", "pyembroidery/JpxReader.py:read_jpx_stitches", "pyembroidery/SewReader.py:read_sew_stitches", "pyembroidery/BroReader.py:read_bro_stitches", "pyembroidery/SpxReader.py:read", "pyembroidery/MitReader.py:read", "pyembroidery/KsmReader.py:read_ksm_stitches", "pyembroidery/ZhsReader.py:read_zhs_stitches", "pyembroidery/PcdReader.py:read_pc_file", "pyembroidery/PcmReader.py:read_pc_file", "pyembroidery/MaxReader.py:read"]}
{"id": "C89", "title": "A file of the small formats gives the threads its header names", "statement": "Reading a SEW, PCD/PCQ/PCS, PCM, JPX, ZHS, DSB or DSZ file gives the threads listed in its header in their order (from the format's own table, as 24-bit colours, or, for ZHS, with chart, description and catalogue number), together with the stitches of its records; DSB and DSZ carry the header of a DST file.", "quantifier": "every list of colours or table numbers the header can hold, every list of texts, every place of the tables, every list of records", "why_tests_cant": "Headers point to tables at places of their own choosing and no writer produces these formats.", "anchors": ["pyembroidery/SewReader.py:read", "pyembroidery/EmbThreadSew.py:get_thread_set", "pyembroidery/PcdReader.py:read_pc_file", "pyembroidery/PcqReader.py:read_pc_file", "pyembroidery/PcsReader.py:read_pc_file", "pyembroidery/PcmReader.py:read_pc_file", "pyembroidery/JpxReader.py:read", "pyembroidery/ZhsReader.py:read_zhs_header", "pyembroidery/ZhsReader.py:read", "pyembroidery/DsbReader.py:read", "pyembroidery/DszReader.py:read"]}
{"id": "C90", "title": "A PES file of version 4 to 10 gives the texts and threads of its header", "statement": "Reading a PES file of version 5, 5.5, 5.6, 6, 7, 8, 9 or 10 gives the version, each text of the header that is not empty, and the stitches of the PEC part. If the header has at least as many threads as the PEC part has colours, the threads are those of the header in their order with catalogue, description, brand and chart; if it has fewer, each colour number that is new takes the next thread of the header, a number seen before keeps its thread, and the rest come from the Brother palette. Version 4 gives its texts and no threads of its own; versions 1 to 3 and unknown ones are read as their PEC part.", "quantifier": "every version, all texts of up to 255 bytes, every list of fewer than 2^16 threads, every content of the bytes not looked at, every PEC part", "why_tests_cant": "No writer of the package produces these versions' threads with other offsets, and each version has its own offsets.", "anchors": ["pyembroidery/PesReader.py:read", "pyembroidery/PesReader.py:read_pes_string", "pyembroidery/PesReader.py:read_pes_metadata", "pyembroidery/PesReader.py:read_pes_thread", "pyembroidery/PesReader.py:read_pes_header_version_4", "pyembroidery/PesReader.py:read_pes_header_version_5", "pyembroidery/PesReader.py:read_pes_header_version_6", "pyembroidery/PesReader.py:read_pes_header_version_7", "pyembroidery/PesReader.py:read_pes_header_version_8", "pyembroidery/PesReader.py:read_pes_header_version_9", "pyembroidery/PesReader.py:read_pes_header_version_10", "pyembroidery/PecReader.py:map_pec_colors", "pyembroidery/PecReader.py:process_pec_table"]}
{"id": "C91", "title": "Every stitch is sewn in its own colour", "statement": "After normalization in COLOR_CHANGE mode, the number of colour changes before a needle strike is the number of the colour in force when its source command was met: a COLOR_CHANGE or NEEDLE_SET begins a new colour for what follows, a COLOR_BREAK does so exactly when something has been sewn before and something is sewn after it, the first stitch begins colour 0 if none has begun, and tie stitches belong to the colour they tie. The pattern gets exactly one thread for each colour begun. In particular a pattern built by add_block calls sews block i in colour i with the i-th thread.", "quantifier": "all sources, all settings with the COLOR_CHANGE thread change command, all blocks with at least one sewing command", "why_tests_cant": "A change word before instead of after the tie stitches, or a break that is not skipped at the end, moves stitches into a neighbouring colour in only some of the unboundedly many sequences of commands.", "anchors": ["pyembroidery/EmbEncoder.py:transcode_main", "pyembroidery/EmbEncoder.py:color_break", "pyembroidery/EmbEncoder.py:tie_off_trim_color_change", "pyembroidery/EmbEncoder.py:next_change_sequence", "pyembroidery/EmbEncoder.py:lookahead_stitch", "pyembroidery/EmbPattern.py:add_block"]}
{"id": "C92", "title": "All ways of entering points enter the same design", "statement": "p += points gives the same pattern whether the points are a list or tuple of pairs, of triples with STITCH, of complex numbers, or one flat list of numbers: the points are appended as STITCH commands in order and later displacements count from the last one; triples keep their commands. A flat list of odd length or an entry with fewer than two numbers raises IndexError after what precedes it has been entered; an empty list changes nothing but makes the name None. add_block does the same and appends a COLOR_BREAK which is not a position to count from, nothing at all for an empty or missing block, and the thread if given. p += command appends the command at the origin, which is not a position to count from. p += thread appends the thread and a colour change at the needle exactly if something has been sewn; so a design entered by p += thread, p += points for each colour sews the i-th points in colour i with the i-th thread.", "quantifier": "all patterns, all nonempty lists of points of any length, all lists of jobs, all settings without ties in COLOR_CHANGE mode for the sewn result", "why_tests_cant": "The forms are told apart by the type of the first element and walked by three different loops; a test fixes lengths and contents.", "anchors": ["pyembroidery/EmbPattern.py:__iadd__", "pyembroidery/EmbPattern.py:add_block", "pyembroidery/EmbPattern.py:add_stitch_absolute", "pyembroidery/EmbPattern.py:add_command", "pyembroidery/EmbPattern.py:add_thread", "pyembroidery/EmbPattern.py:get_match_commands"]}
{"id": "C93", "title": "Equality of threads and patterns, and what a thread can be made from", "statement": "Two threads are equal exactly if the low 24 bits of their colours and all six texts agree, and then their hashes agree; so get_unique_threadlist holds exactly one thread of each kind. Against a number or a colour text only the 24-bit colour counts. EmbThread.set takes from a dict desc before description before name, manufacturer before brand, catalog before id, and hex before color before rgb, and keeps what is not given; a name of the colour table counts in any capitalization and an unknown name gives black; a thread set from another equals it. Two patterns are equal exactly if they have the same commands, equal threads in order and the same extras whatever the order of the keys; a copy is equal to the pattern.", "quantifier": "all threads, numbers, texts and dicts; all lists of threads; all patterns", "why_tests_cant": "Equality has to be an equivalence consistent with the hash for all pairs of threads, or sets of threads lose or double colours.", "anchors": ["pyembroidery/EmbThread.py:__eq__", "pyembroidery/EmbThread.py:__hash__", "pyembroidery/EmbThread.py:set", "pyembroidery/EmbThread.py:parse_string_color", "pyembroidery/EmbThread.py:get_opaque_color", "pyembroidery/EmbPattern.py:get_unique_threadlist", "pyembroidery/EmbPattern.py:__eq__", "pyembroidery/EmbPattern.py:copy"]}
{"id": "C94", "title": "A design saved and loaded again is sewn where and in the colours its source says", "statement": "Save a design and load the file: every needle strike of the walk over the source (C24) comes back, in the same order, in the same colour (C91), moved by at most half a unit on each axis and not at all if it is on the grid; nothing else is sewn. This holds for EXP, DST, JEF and XXX for every source without stops that leaves the length limits alone and does not switch sequins on, under the conditions of each format's round trip, and exactly for VP3. Without ties and cuts the strikes are exactly the sewing commands of the source, placed and rounded. PEC and PES lose and recolour no strike but may show further ones.", "quantifier": "all sources, threads and settings of the format's limits; all headers (DST) and reader settings", "why_tests_cant": "It joins the encoder, the writer and the reader over all designs; a test compares a handful of designs and rarely their colours stitch by stitch.", "anchors": ["pyembroidery/EmbEncoder.py:transcode_main", "pyembroidery/EmbPattern.py:write_embroidery", "pyembroidery/ExpWriter.py:write", "pyembroidery/ExpReader.py:read_exp_stitches", "pyembroidery/DstWriter.py:write", "pyembroidery/DstReader.py:dst_read_stitches", "pyembroidery/JefWriter.py:write", "pyembroidery/JefReader.py:read_jef_stitches", "pyembroidery/XxxWriter.py:write", "pyembroidery/XxxReader.py:read", "pyembroidery/Vp3Writer.py:write", "pyembroidery/Vp3Reader.py:read", "pyembroidery/PecWriter.py:write", "pyembroidery/PecReader.py:read_pec_stitches", "pyembroidery/PesWriter.py:write", "pyembroidery/PesReader.py:read"]}
{"id": "C95", "title": "What is sewn with which needle", "statement": "For formats that select needles (NEEDLE_SET): every strike of the encoded pattern follows as many needle commands as colours have begun in the source, the first one being set before the first stitch; ties before a change are sewn with the old needle. With n needles and none asked for, the needles are taken in turn: what is sewn in the k-th colour is sewn with needle (k-1) mod n + 1. A design saved as U01 or TBF and loaded again is sewn with the same needles at the same points, put on the grid.", "quantifier": "all sources, threads, settings with NEEDLE_SET and any number of needles; files under the conditions of C13 and C14", "why_tests_cant": "A needle command on the wrong side of a tie or a first stitch sews in the wrong colour only for particular sequences of commands.", "anchors": ["pyembroidery/EmbEncoder.py:next_change_sequence", "pyembroidery/EmbEncoder.py:declare_not_trimmed", "pyembroidery/EmbEncoder.py:transcode_main", "pyembroidery/EmbEncoder.py:color_break", "pyembroidery/U01Writer.py:write", "pyembroidery/U01Reader.py:read_u01_stitches", "pyembroidery/TbfWriter.py:write", "pyembroidery/TbfReader.py:read"]}
{"id": "C96", "title": "G-code from elsewhere is read as it says", "statement": "Reading a G-code program gives a stitch for every move with both coordinates, at these coordinates in the unit (millimetres, inches after G20 or G70) and mode (absolute, relative after G91) last set, turned by half a turn; M0 and M1 give colour changes, M2 and M30 ends, at the place of the needle; other codes, heights, feeds, remarks in brackets or behind semicolons and empty lines give nothing.", "quantifier": "all programs of such lines, of any length, with any decimal numbers", "why_tests_cant": "Unit and mode are carried from line to line, numbers are assembled byte by byte from state that lasts across words, and the places of relative moves depend on everything before.", "anchors": ["pyembroidery/GcodeReader.py:parse", "pyembroidery/GcodeReader.py:read"]}
{"id": "C97", "title": "Floating point makes no step too long and no position drift", "statement": "Coordinates are Python floats, rounded at every operation. Dividing a gap between whole positions that is too long gives, in floating point, as many points as exact arithmetic gives, within two millionths of a unit of the exact points; no displacement the writers take from them is longer than the limit, and they lead exactly to the target. The same holds of tie-on and tie-off stitches. After every stitch written, wherever it is and however many came before, the position in the file is within half a unit (and 2^-35) of it, and a design on whole positions is written as exact arithmetic would.", "quantifier": "all gaps and stitch lists with coordinates up to 65536 units (6.5 metres), all whole limits of at least two units, any number of stitches", "why_tests_cant": "Rounding errors depend on the very numbers; a step one unit too long that only appears for some gap and limit makes a DST file unwritable and other files wrong, and no sample of gaps settles that there is none.", "anchors": ["pyembroidery/EmbEncoder.py:interpolate_gap_stitches", "pyembroidery/EmbEncoder.py:lock_stitch", "pyembroidery/EmbEncoder.py:towards", "pyembroidery/DstWriter.py:write", "pyembroidery/ExpWriter.py:write"]}
{"id": "C98", "title": "Saving and loading again and again loses nothing", "statement": "A design loaded from a file, saved and loaded again, any number of times and alternating between EXP, DST, JEF and XXX in any order, is sewn after each round at exactly the same points, in the same order and in the same colours, and can be saved again. This supposes that something is sewn before the first colour change; otherwise each round loses one of the leading colour changes, and everything is sewn in the colour before.", "quantifier": "all designs as files hold them (stitches on whole positions, jumps, trims, colour changes), all finite sequences of formats, headers, threads, trim settings of the readers and encoder settings that do not move, tie or cut the design", "why_tests_cant": "Rounds of saving and loading compound: a shift of a tenth of a millimetre, or a duplicated stitch, that one round makes on some rare design is only noticed after several; the sequences of formats are without end.", "anchors": ["pyembroidery/EmbPattern.py:get_normalized_pattern", "pyembroidery/EmbEncoder.py:transcode", "pyembroidery/ExpWriter.py:write", "pyembroidery/ExpReader.py:read", "pyembroidery/DstWriter.py:write", "pyembroidery/DstReader.py:read", "pyembroidery/JefWriter.py:write", "pyembroidery/JefReader.py:read", "pyembroidery/XxxWriter.py:write", "pyembroidery/XxxReader.py:read"]}
{"id": "C99", "title": "A file that was cut off is read as the beginning of its design", "statement": "When the end of a file is missing, what is read is the beginning of the design of the whole file: the same commands at the same positions up to some point, then END. Nothing is added, moved or changed because of what is missing.", "quantifier": "all byte strings, whatever their content, and all places of the cut, for KSM, DSB, DSZ, FXY, GT, NEW, INB, 10O, STC, SUNSTAR, EMD, 100, MIT, JPX, SEW, ZHS, PCD, PCM, EXP, U01, PEC; DST and JEF up to jumps and the trims made from them; JEF, TBF and PEC files cut after their tables; BRO, ZXY, MAX, DAT, SPX and XXX where the cut file is read at all", "why_tests_cant": "A test cuts a few files at a few places; the reader's record sizes depend on the bytes read, so that a cut can fall within any kind of record with any continuation.", "anchors": ["pyembroidery/KsmReader.py:read", "pyembroidery/DsbReader.py:read", "pyembroidery/FxyReader.py:read", "pyembroidery/EmdReader.py:read", "pyembroidery/ExpReader.py:read_exp_stitches", "pyembroidery/DstReader.py:dst_read_stitches", "pyembroidery/JefReader.py:read_jef_stitches", "pyembroidery/PecReader.py:read_pec_stitches", "pyembroidery/TbfReader.py:read", "pyembroidery/U01Reader.py:read_u01_stitches", "pyembroidery/XxxReader.py:read", "pyembroidery/PcdReader.py:read_pc_stitches", "pyembroidery/MaxReader.py:read", "pyembroidery/BroReader.py:read_bro_stitches"]}
{"id": "C100", "title": "What follows the end of a design does not matter", "statement": "Bytes after the end mark of a file (padding of a disk sector, rubbish left by a transfer) change nothing: the file is read exactly as without them.", "quantifier": "all written patterns with an END (DST, U01, TBF, JEF, PEC stitches), all written VP3 files, all PEC and PES files (versions 1 to 10) with an end mark after their stitches, all HUS files with an end mark in their last stream, all XXX files with a complete colour table, all MAX files with the announced number of stitches, and for KSM, DSB, DSZ, FXY, GT, NEW, INB, 10O, STC, ZHS, Sunstar DAT, PCD, PCM, JPX, SEW, EMD, BRO any records before the end mark; all bytes after it", "why_tests_cant": "What follows may be anything, in particular further records; the reader must recognise the end mark after every possible sequence of records of varying length.", "anchors": ["pyembroidery/DstReader.py:dst_read_stitches", "pyembroidery/U01Reader.py:read_u01_stitches", "pyembroidery/TbfReader.py:read", "pyembroidery/JefReader.py:read_jef_stitches", "pyembroidery/XxxReader.py:read", "pyembroidery/PecReader.py:read_pec_stitches", "pyembroidery/KsmReader.py:read_ksm_stitches", "pyembroidery/DsbReader.py:b_stitch_encoding_read", "pyembroidery/MaxReader.py:read", "pyembroidery/PcdReader.py:read_pc_file", "pyembroidery/ExpReader.py:read_exp_stitches"]}
{"id": "C101", "title": "Texts made with the generic writer are filled with the values of the design", "statement": "In a file made from the user's texts, every field is replaced by the value of the design it names: counts, totals and extents of the design everywhere; key and value in the entry of each metadata item; colour, description, brand and the rest in the entry of each thread; and in the texts around a command its number, name, needle, position, difference, rounded position and the indices of document, colour and block. A colour announced in the file is that of the colour.", "quantifier": "all patterns, all texts (also tables of texts by a field), all ways of printing values; dictionaries of metadata of any content", "why_tests_cant": "The dictionary of fields is built up over the whole run and keeps stale values; whether a value belongs to the text being written depends on everything written before.", "anchors": ["pyembroidery/GenericWriter.py:GenericWriter.set_document_statistics", "pyembroidery/GenericWriter.py:GenericWriter.update_command", "pyembroidery/GenericWriter.py:GenericWriter.update_positions", "pyembroidery/GenericWriter.py:GenericWriter.write", "pyembroidery/GenericWriter.py:GenericWriter.open_color"]}
{"id": "C102", "title": "The guides of a PNG picture are a ruler for the design", "statement": "With guides, the picture has a dark line of 31 pixels at the upper (left) edge for every multiple of five millimetres that is 30 columns (rows) away from the ends, at the column (row) where a stitch with this coordinate is; beside it is the number of millimetres, readable; all other pixels are those of the picture without guides. The picture can be drawn for every design.", "quantifier": "all designs, colours, line widths up to 3, backgrounds, shading on or off", "why_tests_cant": "Marks, numbers and stitches share one buffer and are drawn over each other; the places of the marks depend on the remainder of the least coordinates, which can be negative or no integers.", "anchors": ["pyembroidery/PngWriter.py:draw_guides", "pyembroidery/PngWriter.py:PngBuffer.draw_text", "pyembroidery/PngWriter.py:write"]}
{"id": "C103", "title": "Any design can be saved, and the file consists of bytes", "statement": "Saving a design raises no exception, whatever stitches, moves and commands it consists of, and whatever its threads and texts are; all values written into the file are bytes (0 to 255), so no struct or bytes function rejects one.", "quantifier": "all designs, threads, texts and writers of EXP, DST, JEF, XXX, VP3, U01, TBF, PEC, PES, PMV, EDR, INF", "why_tests_cant": "The values come from sums and differences of arbitrary coordinates, counters and needle numbers; a value one too large in one place raises for one design in a million.", "anchors": ["pyembroidery/ExpWriter.py:write", "pyembroidery/DstWriter.py:write", "pyembroidery/JefWriter.py:write", "pyembroidery/XxxWriter.py:write", "pyembroidery/Vp3Writer.py:write", "pyembroidery/U01Writer.py:write", "pyembroidery/TbfWriter.py:write", "pyembroidery/PecWriter.py:write", "pyembroidery/PesWriter.py:write", "pyembroidery/PmvWriter.py:write", "pyembroidery/WriteHelper.py"]}
{"id": "C104", "title": "Mirrored and turned designs are normalized to mirrored and turned results", "statement": "If a design is mirrored horizontally or vertically, or its axes are exchanged, or it is turned by quarter turns, then normalizing it with the same settings gives exactly what normalizing the original gives, mirrored or turned the same way: the same commands in the same order, the same threads, the same exception if any, and each position the image of the original one, also where positions were rounded at exact halves or long stitches and jumps were divided. The same holds if the encoder is asked to mirror or turn by the settings scale and rotate.", "quantifier": "all designs without on-the-fly matrix commands, all settings, all eight symmetries; where lock stitches are asked for, C functions that treat the directions alike", "why_tests_cant": "Rounding at halves, the direction in which steps are counted and comparisons of signed distances would break the symmetry for single designs only.", "anchors": ["pyembroidery/EmbEncoder.py:transcode_main", "pyembroidery/EmbEncoder.py:interpolate_gap_stitches", "pyembroidery/EmbEncoder.py:__init__", "pyembroidery/EmbMatrix.py:point_in_matrix_space"]}
{"id": "C105", "title": "A moved design is normalized to the moved result", "statement": "If a design is moved, normalizing it with the same settings gives what normalizing the original gives, moved by the same distance: the same commands, threads and exceptions, each position moved. Only the way from the origin to the first point may differ; it consists of jumps and the choice of the first thread or needle. The same holds for the setting translate.", "quantifier": "all designs that begin with a stitch or a jump and contain no on-the-fly matrix commands, all distances, all settings", "why_tests_cant": "How jumps and stitches are divided must depend on differences only; a use of an absolute position shows for particular positions only.", "anchors": ["pyembroidery/EmbEncoder.py:transcode_main", "pyembroidery/EmbEncoder.py:interpolate_gap_stitches", "pyembroidery/EmbEncoder.py:lock_stitch"]}
{"id": "C106", "title": "A file is read as no more than it holds, or refused with a known exception", "statement": "Opening any bytes whatsoever ends. Either one of a few exceptions is raised (TypeError where the file ends too early, IndexError or KeyError where a table lacks an entry, ValueError or AttributeError where a text is malformed), or a pattern is read that has at most one command per byte of the file besides the END, at most one thread per byte, and END as its last command. No counts or offsets in a header make it more.", "quantifier": "all byte strings, all settings of the readers; formats JEF, XXX, TBF, SHV, VP3, PEC, PES, PHB, PHC, STX, DST, TAP, EXY, DSB, DSZ, SEW, JPX, PCD, PCQ, PCS, PCM, ZHS, HUS", "why_tests_cant": "A file that makes a reader loop, run out of memory or stop with another exception has a special header; tests use well-formed files.", "anchors": ["pyembroidery/JefReader.py:read", "pyembroidery/XxxReader.py:read", "pyembroidery/TbfReader.py:read", "pyembroidery/ShvReader.py:read", "pyembroidery/Vp3Reader.py:read", "pyembroidery/PecReader.py:read_pec", "pyembroidery/PesReader.py:read", "pyembroidery/PhbReader.py:read", "pyembroidery/PhcReader.py:read", "pyembroidery/DstReader.py:read", "pyembroidery/HusReader.py:read", "pyembroidery/ZhsReader.py:read"]}
{"id": "C107", "title": "Transforming while normalizing is transforming before normalizing", "statement": "Translate, scale and rotate settings of the encoder and the matrix commands in a design (translate, scale and rotate about the origin, reset) only say where the points are: the design with every point put there beforehand, normalized without them, gives exactly the same commands, positions, threads and errors. In particular calling transform on the pattern first is the same as asking for the transformation in the settings, if no command carries a length.", "quantifier": "all designs, settings and transformations; rounding, subdividing of long stitches, lock stitches and sequins included", "why_tests_cant": "The encoder applies its matrix at every place that looks at a position, also the neighbours lock stitches are made towards; a forgotten or doubled application only shows in some combination of features.", "anchors": ["pyembroidery/EmbEncoder.py:Transcoder.__init__", "pyembroidery/EmbEncoder.py:Transcoder.transcode_stitches", "pyembroidery/EmbEncoder.py:Transcoder.tie_on", "pyembroidery/EmbEncoder.py:Transcoder.tie_off", "pyembroidery/EmbPattern.py:EmbPattern.transform"]}
{"id": "C108", "title": "Converting a file into another format keeps every stitch in its place", "statement": "A file of any of the formats in tenths of a millimetre, read by its reader, normalized for EXP, DST, JEF or XXX with settings that add nothing, written and read again, gives exactly the same stitch points in the same order, through however many conversions; the colour of each stitch stays the same if there are no stops. A design in other units is moved once, every stitch to the nearest point of the grid.", "quantifier": "all byte strings the readers accept; all chains of conversions; all such settings", "why_tests_cant": "Between the bytes of one format and those of another lie a reader with its own command mix, the normalization (subdividing, jumps, thread plan), a writer's rounding of displacements and a second reader; samples cover few of the pairs and no error that adds up along a design.", "anchors": ["pyembroidery/EmbPattern.py:EmbPattern.convert", "pyembroidery/EmbPattern.py:EmbPattern.read_embroidery", "pyembroidery/EmbEncoder.py:Transcoder.transcode", "pyembroidery/ExpWriter.py:write", "pyembroidery/DstWriter.py:write", "pyembroidery/JefWriter.py:write", "pyembroidery/XxxWriter.py:write", "pyembroidery/KsmReader.py:read", "pyembroidery/TbfReader.py:read"]}
{"id": "C109", "title": "A setting changes only what it names", "statement": "Normalizing the same design with two values of one setting gives the same exception or results that differ only in what the setting names: without speeds exactly the SLOW and FAST commands are missing; ties only add locks of four stitches; full_jump only adds JUMPs; explicit_trim only adds TRIMs; another needle count gives the same commands at the same places with the same threads, only other needles; another thread list gives the same stitches; choosing needles instead of changing colours adds the choice of the first needle and renames the others.", "quantifier": "all designs, all thread lists, all values of the other settings", "why_tests_cant": "A setting acts through state that later steps look at (trimmed, jumping, sequin mode, order of changes), so an effect may appear far from the place where it was caused; pairs of runs over all designs and all values of the other settings cannot be enumerated.", "anchors": ["pyembroidery/EmbEncoder.py:Transcoder.__init__", "pyembroidery/EmbEncoder.py:Transcoder.transcode_main", "pyembroidery/EmbEncoder.py:Transcoder.build_thread_change_sequence", "pyembroidery/EmbEncoder.py:Transcoder.next_change_sequence", "pyembroidery/EmbEncoder.py:Transcoder.jump_to_within_stitchrange", "pyembroidery/EmbEncoder.py:Transcoder.tie_on", "pyembroidery/EmbEncoder.py:Transcoder.tie_off"]}
{"id": "C110", "title": "What is appended to a design does not change how the beginning is normalized", "statement": "Normalizing a design that goes on gives, up to the END, the commands and threads of normalizing the shorter design, followed by more; a design that is refused stays refused whatever is appended.", "quantifier": "all designs and continuations, all settings and thread lists; the shorter design without END and with its colour breaks followed by a stitch, not starting with a TIE_OFF, not ending in a stitch if it ties on; no SET_CHANGE_SEQUENCE", "why_tests_cant": "The normalization plans all changes in advance, looks ahead at colour breaks and one command ahead for ties; whether something appended acts backwards depends on where each of these looks, over all pairs of designs.", "anchors": ["pyembroidery/EmbEncoder.py:Transcoder.build_thread_change_sequence", "pyembroidery/EmbEncoder.py:Transcoder.get_as_thread_change_sequence_events", "pyembroidery/EmbEncoder.py:Transcoder.lookahead_stitch", "pyembroidery/EmbEncoder.py:Transcoder.tie_on", "pyembroidery/EmbEncoder.py:Transcoder.tie_off", "pyembroidery/EmbEncoder.py:Transcoder.transcode_main"]}
{"id": "C111", "title": "The normalization knows no unit of length", "statement": "A design given in another unit of length (all positions, limits and shifts times the same positive factor) is normalized to the same commands and threads with all positions times that factor, and is refused with the same error if it is.", "quantifier": "all designs (also with transformations, limits and lock stitches set on the way), all positive factors, all settings without rounding; lock stitches if the C distance functions scale along", "why_tests_cant": "Subdividing compares rounded-up quotients, the transformations act about the moving needle, and single limits are changed on the way; no sample shows that every length in the code is treated relative to a limit in the same unit.", "anchors": ["pyembroidery/EmbEncoder.py:Transcoder.interpolate_gap_stitches", "pyembroidery/EmbEncoder.py:Transcoder.lock_stitch", "pyembroidery/EmbEncoder.py:Transcoder.transcode_main", "pyembroidery/EmbMatrix.py:EmbMatrix.inverse", "pyembroidery/EmbMatrix.py:EmbMatrix.post_scale"]}
{"id": "C112", "title": "The CT0 file beside a TBF file names the same needles at fixed places", "statement": "Writing TBF with the setting `ct0` also writes a file of 0x790 bytes in which the needle of change number k stands at 0x10E + 2k as a digit followed by 1, all other fields begin at fixed offsets and free places are blank; the needles are those in the table of the TBF file.", "quantifier": "all designs whose needle changes name a needle, at most 255 of them; all names, threads and positions for which the TBF header has room", "why_tests_cant": "Each field is padded relative to the position reached so far, so one field too long shifts everything behind it; only a proof over all numbers of needle changes gives the exact limit.", "anchors": ["pyembroidery/TbfWriter.py:_write_ct0", "pyembroidery/TbfWriter.py:write_ct0", "pyembroidery/TbfWriter.py:write"]}
{"id": "C113", "title": "Patterns that compare equal are saved as the same file", "statement": "If p == q, then saving p and saving q with the same settings gives the same bytes, or raises the same exception, in every format; the same holds after encoding, since equal patterns are normalized to equal patterns. (Random threads for colours without a thread are taken to be the same ones.)", "quantifier": "all pairs of patterns that == calls equal, all settings, all writers", "why_tests_cant": "Equality ignores the bits of a colour above the 24th and the order of the metadata; whether any writer, palette search or thread comparison looks at them can only be seen from all colours and all ways through the writers.", "anchors": ["pyembroidery/EmbPattern.py:__eq__", "pyembroidery/EmbThread.py:__eq__", "pyembroidery/EmbThread.py:build_unique_palette", "pyembroidery/EmbEncoder.py:transcode_metadata", "pyembroidery/EmbPattern.py:write_embroidery", "pyembroidery/TxtWriter.py:write_normal", "pyembroidery/Vp3Writer.py:vp3_write_thread", "pyembroidery/JefWriter.py:write"]}
{"id": "C114", "title": "Saving touches the named file only, and only after the design was normalized", "statement": "static_write changes no file but the named one (and the CT0 file if one is asked for). With an unknown extension, without a writer, with no pattern, or if the normalization raises, every file is as before. After a save without exception the file is exactly the bytes of the writer, whatever stood there, and static_read on that name gives what the reader makes of these bytes. convert uses the content of the source from before the call, also if source and target are the same file. A save that raises leaves the old file intact.", "quantifier": "all disks, names, extensions in any case, patterns, writers, readers, settings and exceptions", "why_tests_cant": "The order of opening, normalizing and writing matters only when something raises in between, and tests save good designs to fresh files.", "anchors": ["pyembroidery/EmbPattern.py:static_write", "pyembroidery/EmbPattern.py:write_embroidery", "pyembroidery/EmbPattern.py:static_read", "pyembroidery/EmbPattern.py:read_embroidery", "pyembroidery/EmbPattern.py:convert"]}
{"id": "C115", "title": "Stitches, trims, stops, speeds and thread changes come in the order of the source", "statement": "Apart from jumps and sequins a normalized pattern is, command by command, what the source says: a sewing command gives its stitches (preceded by the first thread), TRIM a trim if the thread is in the fabric, a colour change a trim where trims are explicit and then the change, COLOR_BREAK the same only between stitches, STOP a stop, FRAME_EJECT a trim and a stop, SLOW and FAST themselves if speeds are written. In particular every STOP, FRAME_EJECT, SLOW and FAST before END appears exactly once and in order, and stands between the same two stitches as in the source. (With STOP as the thread change command the thread changes appear as stops too.)", "quantifier": "all sources, settings, thread lists and libm; the last sentence for sources without ties, cuts, sequins and matrix commands", "why_tests_cant": "A stop that slips past a stitch, or is merged with a trim or a change, depends on the state of trims, jumps, sequins and threads at that moment; tests have few such combinations.", "anchors": ["pyembroidery/EmbEncoder.py:transcode_main", "pyembroidery/EmbEncoder.py:stop_here", "pyembroidery/EmbEncoder.py:tie_off_trim_color_change", "pyembroidery/EmbEncoder.py:color_break", "pyembroidery/EmbEncoder.py:next_change_sequence", "pyembroidery/EmbEncoder.py:declare_not_trimmed"]}
{"id": "C116", "title": "A normalized pattern is at most so much longer than its source", "statement": "If a design of n commands, placed by the settings, lies in a rectangle with sides of at most K times the shortest length limit (the origin, where the machine starts, included), its normalized form has at most n * (10 + K) + 1 commands. Without length limits it has at most 11 n + 1, however large the design is. So splitting long stitches, locking threads and sequins cannot make a pattern grow without bound.", "quantifier": "all sources without matrix commands, all settings, thread lists and libm; limits positive", "why_tests_cant": "The number of inserted commands depends on the distances, the limits, the state of trims and sequins at each command; tests measure a few designs and cannot show that no design explodes.", "anchors": ["pyembroidery/EmbEncoder.py:transcode_main", "pyembroidery/EmbEncoder.py:interpolate_gap_stitches", "pyembroidery/EmbEncoder.py:lock_stitch", "pyembroidery/EmbEncoder.py:sequin_at", "pyembroidery/EmbEncoder.py:tie_off_trim_color_change"]}
{"id": "C117", "title": "The blocks of a VP3 file fit into each other, and its header describes the design", "statement": "Following the distances written in a VP3 file one finds one file block that ends with the file, in it one design block that ends with it, in it exactly as many colour blocks as the file says, and in each a thread and a stitches block that ends one byte before the colour block. The extents, centre and size are those of the design, the stitch count is the number of commands other than END, and the colour blocks are the parts of the design between its colour changes, each with its own thread, its start and its length.", "quantifier": "every pattern whose threads have ASCII texts, with fewer than 65535 colour changes and positions up to a kilometre; the one-byte count of colours modulo 256", "why_tests_cant": "The distances are patched in afterwards and depend on the lengths of all texts and stitches in between; the library's own reader skips them, so no round trip checks them, while other programs and machines follow them.", "anchors": ["pyembroidery/Vp3Writer.py:write_file", "pyembroidery/Vp3Writer.py:write_design_block", "pyembroidery/Vp3Writer.py:write_vp3_colorblock", "pyembroidery/Vp3Writer.py:write_stitches_block", "pyembroidery/Vp3Writer.py:vp3_patch_byte_offset", "pyembroidery/Vp3Writer.py:get_as_colorblocks"]}
{"id": "C118", "title": "The threads read from any PEC or PES file are the ones its header and colour bytes stand for", "statement": "In any PEC file that can be read each colour byte gives the Brother thread of that number, counted modulo 65, and black for 0. In a PES file with at least as many threads in the header as there are colour bytes the threads are those of the header; with fewer, blocks with the same number get the same thread, and the numbers get, in the order in which they first appear, the threads of the header and, after these are used up, the Brother threads.", "quantifier": "every file, written by whatever program, with any header threads and any colour bytes", "why_tests_cant": "The library's own writers produce only one of the three cases; the third depends on which numbers have appeared before, for any number of blocks.", "anchors": ["pyembroidery/PecReader.py:map_pec_colors", "pyembroidery/PecReader.py:process_pec_colors", "pyembroidery/PecReader.py:process_pec_table", "pyembroidery/PecReader.py:read_pec"]}
{"id": "C119", "title": "The normalization never leaves the outline of the design", "statement": "Every position in a normalized pattern lies in the convex hull of the points the design names (placed by the settings) and the origin, where the machine starts; every stitch in it lies in the convex hull of those points alone. With lock stitches the points before rounding belong to the outline too. So a hoop with whole-numbered edges that holds the design and the start holds the result, whatever is split, jumped, locked, rounded, ejected as a sequin or appended.", "quantifier": "all sources, settings, thread lists and libm, without matrix commands, or, without lock stitches, with those matrix commands that do not depend on the needle; with lock stitches the limits are not negative and the C functions find points on the line", "why_tests_cant": "A move is cut up or locked depending on limits, trims, jumps and neighbours, and one coordinate outside the hoop breaks a needle; tests look at a few designs.", "anchors": ["pyembroidery/EmbEncoder.py:transcode_main", "pyembroidery/EmbEncoder.py:interpolate_gap_stitches", "pyembroidery/EmbEncoder.py:lock_stitch", "pyembroidery/EmbEncoder.py:jump_to_within_stitchrange", "pyembroidery/EmbEncoder.py:sequin_at"]}
{"id": "C120", "title": "A CSV table from elsewhere is read as its rows say", "statement": "A comma separated table, its values bare or between quotes with quotes doubled, its lines ended in any of the three ways, is read row by row: a row marked with a star adds a stitch with the named command, the thread, needle and order behind the name in any order, and the coordinates (none: the origin); a row marked $ adds a thread, by red, green and blue or by #rrggbb or a colour name; @ sets metadata, the last value of a name counting; # and unmarked rows and empty lines add nothing. A command without a name makes the file unreadable.", "quantifier": "all tables of such rows, of any length, all texts of them, all ways of reading numbers", "why_tests_cant": "Quotes, commas, line ends and marks combine in any order, and the parser carries its state from one character to the next; tests have a few files, all written by the library itself.", "anchors": ["pyembroidery/CsvReader.py:read", "pyembroidery/EmbFunctions.py:get_command_dictionary", "pyembroidery/EmbThread.py:parse_string_color"]}
{"id": "C121", "title": "What follows the END of a design is not sewn and changes nothing", "statement": "A design is normalized, and so saved, as if nothing stood behind its first END: the same commands in the same places, the same threads, or the same exception.", "quantifier": "every design with an END, everything behind it, every setting with a needle count other than 0 and every thread list", "why_tests_cant": "The main loop stops at the END, but the changes are planned beforehand over the whole pattern, colour breaks look ahead and ties look at their neighbours; that none of these reaches behind the END has to be known for all pairs of designs.", "anchors": ["pyembroidery/EmbEncoder.py:Transcoder.transcode_main", "pyembroidery/EmbEncoder.py:Transcoder.get_as_thread_change_sequence_events", "pyembroidery/EmbEncoder.py:Transcoder.build_thread_change_sequence", "pyembroidery/EmbEncoder.py:Transcoder.lookahead_stitch", "pyembroidery/EmbEncoder.py:Transcoder.tie_off"]}
{"id": "C122", "title": "A file read into a pattern comes behind what the pattern holds", "statement": "pattern.read(file) on a pattern that is not empty leaves its commands and threads as they are and adds the commands of the file, each moved by the position at which the pattern ended. If the pattern had its END already, as every pattern read from a file has, the added commands are never sewn: of two files read into one pattern only the first is saved.", "quantifier": "all patterns, all bytes; EXP, KSM, FXY, GT, NEW, INB, 10O, STC, EMD, 100, BRO and MIT files; the last sentence for all settings with a needle count other than 0", "why_tests_cant": "All patterns and all byte strings; what is saved depends on the whole normalization.", "anchors": ["pyembroidery/EmbPattern.py:EmbPattern.read", "pyembroidery/EmbPattern.py:EmbPattern.read_embroidery", "pyembroidery/EmbPattern.py:EmbPattern.add_stitch_relative", "pyembroidery/ExpReader.py:read_exp_stitches", "pyembroidery/KsmReader.py:read_ksm_stitches", "pyembroidery/InbReader.py:read_inb_stitches"]}
{"id": "C123", "title": "Which thread or needle a change asks for moves no stitch", "statement": "Two designs with the same commands at the same places, in which the colour changes, needle changes, colour breaks and change sequences ask for other threads and needles, are normalized to the same commands at the same places (or with the same exception), and as many threads are named. Without lock stitches, colour breaks and change sequences the whole upper part of every command word is without influence on commands and places.", "quantifier": "all pairs of such designs, all thread lists, all settings with a needle count other than 0", "why_tests_cant": "The plan of changes is made from threads, needles and orders asked for anywhere in the design, colour breaks and ties compare whole words; that none of this reaches the positions has to be known for all pairs of designs.", "anchors": ["pyembroidery/EmbEncoder.py:Transcoder.build_thread_change_sequence", "pyembroidery/EmbEncoder.py:Transcoder.get_as_thread_change_sequence_events", "pyembroidery/EmbEncoder.py:Transcoder.next_change_sequence", "pyembroidery/EmbEncoder.py:Transcoder.lookahead_stitch", "pyembroidery/EmbFunctions.py:decode_embroidery_command"]}
{"id": "C124", "title": "A file saved, loaded and saved again is the same file", "statement": "Saving a design as EXP, loading the file and saving what was loaded with the same settings gives the same file, byte for byte, so repeated editing sessions do not wear a design out.", "quantifier": "all designs, thread lists and settings of the EXP kind (limits 127, rounding, colour changes)", "why_tests_cant": "Rounding, splitting of long moves, trims and leading changes are each applied twice; that the second pass finds nothing left to do has to be known for all designs.", "anchors": ["pyembroidery/ExpWriter.py:write", "pyembroidery/ExpReader.py:read_exp_stitches", "pyembroidery/EmbEncoder.py:Transcoder.transcode", "pyembroidery/EmbPattern.py:EmbPattern.get_normalized_pattern"]}
{"id": "C125", "title": "Files of the larger formats written by other programs are read as their records say", "statement": "An EXP, U01, PEC, XXX, TBF, JEF or DST file made of valid records is read as the commands of the records in their order, every stitch and jump at the position reached by adding the recorded displacements, then END. This includes records the library never writes: four-byte stitches and colour changes with a displacement in EXP, fast, slow, bobbin and needle records with a displacement and either highest bit in U01, long forms of short distances and marks on either axis in PEC, trims with a jump, several colour change codes and unknown records in XXX, jumps to nowhere and needle 0 in TBF, unused colours and colour 0 in JEF, colour changes and sequin marks on the way in DST. XXX and TBF files give the colours of their tables, JEF files the threads of the numbers in their table without the zeros that stood for stops; a JEF file with more changes than colours is refused.", "quantifier": "every list of records whose displacements fit, of any length, in any order, with any header around them, and every way the data may end", "why_tests_cant": "The library's writers produce only some of the records, so round trips never meet the others; sample files contain few of them.", "anchors": ["pyembroidery/ExpReader.py:read_exp_stitches", "pyembroidery/U01Reader.py:read_u01_stitches", "pyembroidery/PecReader.py:read_pec_stitches", "pyembroidery/XxxReader.py:read", "pyembroidery/TbfReader.py:read", "pyembroidery/JefReader.py:read_jef_stitches", "pyembroidery/JefReader.py:read", "pyembroidery/DstReader.py:dst_read_stitches"]}
{"id": "C126", "title": "VP3 files written by other programs are read as their records say", "statement": "A VP3 file with any texts, any fixed parts, a centre and block starts at any hundredth of a unit, threads of any number of colours with names in UTF-8, and blocks of short stitches, 16-bit stitches, trims and unknown marks is read as one colour after the other: a jump to the start the block gives (from the centre, y upwards in the file), its stitches and trims at the positions reached by adding the recorded displacements, a colour change between the colours, END at the end; one thread per block, with the last of its colours (black if it has none) and its three texts.", "quantifier": "every such file: any number of blocks, of colours in a thread and of records in a block, any bytes in the parts that are passed over and behind the data", "why_tests_cant": "The library's VP3 writer gives every thread one colour, whole-unit starts and its own texts; round trips and the few sample files do not meet the others.", "anchors": ["pyembroidery/Vp3Reader.py:read", "pyembroidery/Vp3Reader.py:vp3_read_colorblock", "pyembroidery/Vp3Reader.py:vp3_read_thread"]}
{"id": "C127", "title": "Colour files and PMV files written by other programs are read as they say", "statement": "An EDR file gives one thread of the recorded colour for every four bytes, whatever the fourth byte is. An INF file gives one thread per record, with the recorded colour and the description and chart that are there: both, only the first, or none; in any UTF-8 characters, with any bytes behind them. A COL file gives one thread per line, with the text in the first column as catalogue number and the colour of the next three; further columns, either line end and whatever follows the counted lines do not matter. A PMV file gives one stitch per point of its blocks, the horizontal distances added up, the vertical ones from the middle, and END after the block whose length is 256 or more.", "quantifier": "every list of records, lines or blocks, every text and every content of the bytes that are passed over", "why_tests_cant": "The library's writers fill the ignored bytes with zeros, always write both texts, one column layout and one block; other files never occur in round trips.", "anchors": ["pyembroidery/EdrReader.py:read", "pyembroidery/InfReader.py:read", "pyembroidery/ColReader.py:read", "pyembroidery/PmvReader.py:read_pmv_stitches"]}
{"id": "C128", "title": "Metadata stay with the design", "statement": "What was entered last under a name is found under it and no other name, stitch or thread is touched. A copy, a pattern made from another one, the pattern with trims inferred, with jumps merged, the stable and the normalized pattern all have the metadata of the pattern they come from, in the same order, and metadata do not change what is sewn. When patterns are added, the second one's value counts where both have one. A name that was never entered gives the default, or a KeyError with square brackets; a cleared pattern has none.", "quantifier": "every pattern, every name, values of any type, every setting of the normalization", "why_tests_cant": "Tests enter one or two names and look at one derived pattern; which of two values wins and whether any derived pattern drops one is a statement about all of them.", "anchors": ["pyembroidery/EmbPattern.py:metadata", "pyembroidery/EmbPattern.py:get_metadata", "pyembroidery/EmbPattern.py:copy", "pyembroidery/EmbPattern.py:add_pattern", "pyembroidery/EmbPattern.py:get_pattern_interpolate_trim", "pyembroidery/EmbPattern.py:get_pattern_merge_jumps", "pyembroidery/EmbPattern.py:get_stable_pattern", "pyembroidery/EmbEncoder.py:transcode_metadata"]}
{"id": "C129", "title": "No sequin is lost, invented or moved", "statement": "A normalized pattern ejects a sequin exactly for each SEQUIN_EJECT command before END for which sequins are in use, in order, at the place the transformation in force gives it; if sequins are not in use it ejects none. If every sequin is held by a thread (something was sewn since the last trim, stop or colour change) and lies within the stitch limit, sequins neither add nor take away stitches. So a design with sequins and without speed commands saved as DST and loaded again has the same stitches and the same sequins; saved as EXP, or as JEF if no colour change comes first, it has the same stitches.", "quantifier": "every source, every documented setting and maths library; every design of stitches, jumps, trims, stops, changes, speeds and sequins on the grid", "why_tests_cant": "Sequins depend on three things kept apart in the code: the contingency, the sequin mode that is toggled by jumps and trims, and whether the thread is in the fabric; tests show a few orders of commands.", "anchors": ["pyembroidery/EmbEncoder.py:sequin_at", "pyembroidery/EmbEncoder.py:toggle_sequins", "pyembroidery/EmbEncoder.py:transcode_main", "pyembroidery/DstWriter.py:write", "pyembroidery/DstReader.py:dst_read_stitches", "pyembroidery/ExpWriter.py:write", "pyembroidery/JefWriter.py:write"]}
{"id": "C130", "title": "Trims are inferred for long runs of jumps, and lengths are millimetres", "statement": "In a loaded JEF, DST, TAP or EXY design a trim stands before a run of jumps exactly if there is thread to cut (a stitch or sequin came right before) and the run has the number of jumps asked for or gets farther than trim_distance millimetres (ten units each) from its start along an axis. DST, TAP and EXY ask for 3 jumps and no distance, JEF for 3 mm and no number (3 with trims=True); trim_at, trim_distance and clipping of the settings replace these. The jumps stay (with clipping: if none comes back to the start), and so do the commands around them.", "quantifier": "every file and settings; every run of jumps wherever it is in the file", "why_tests_cant": "The loop keeps seven variables across the whole file and inserts behind its own index; unbounded files and thresholds.", "anchors": ["pyembroidery/JefReader.py:read_jef_stitches", "pyembroidery/DstReader.py:dst_read_stitches", "pyembroidery/TapReader.py:read", "pyembroidery/ExyReader.py:read", "pyembroidery/EmbPattern.py:EmbPattern.interpolate_trims"]}
{"id": "C131", "title": "Trims survive being saved as JEF or DST", "statement": "A normalized pattern trims only after a stitch with nothing but jumps, sequins and speed commands between. Saved as JEF with trims=True and loaded with the same number of jumps for a trim (any trim_distance and clipping), the design has every trim of the normalized pattern, at the stitch before it, with as many stitches before and after it; saved as DST and loaded with the same trim_at (at least 1) likewise. Without trims=True JEF does not keep them.", "quantifier": "every source, documented setting, maths library and positive trim_at; every trim of the design", "why_tests_cant": "The writer replaces a trim by a burst of jumps that merges with the jumps around it; the reader counts them across the whole run; unbounded designs and counts.", "anchors": ["pyembroidery/JefWriter.py:write", "pyembroidery/JefReader.py:read_jef_stitches", "pyembroidery/DstWriter.py:write", "pyembroidery/DstReader.py:dst_read_stitches", "pyembroidery/EmbPattern.py:EmbPattern.interpolate_trims", "pyembroidery/EmbEncoder.py:Transcoder.trim_here"]}
{"id": "C132", "title": "The settings of a writer choose the variant of the file, not the design", "statement": "The settings select a variant of the file as documented: DST has an extended header if version is 'extended' or extended header is set; CSV has displacements by version, deltas or displacement; TXT is short with mimic or a version other than default; PES takes version, else pes version, else 1, a text with a final t or truncated asking for the short form; JEF writes trims only with trims, as trim_at jumps. All variants are loaded as the same design: DST files as the same stitches, CSV tables as the same design, and PES files of versions 1 and 6, truncated or not, as the same stitches, except that thread changes in one can be stops in another. For a PES version other than 1 and 6 the file is empty.", "quantifier": "every settings dictionary or None; every design the formats can hold", "why_tests_cant": "The choice combines several keys with old names and types; each variant is written by different code and read by the same; unbounded designs.", "anchors": ["pyembroidery/DstWriter.py:write", "pyembroidery/CsvWriter.py:write", "pyembroidery/TxtWriter.py:write", "pyembroidery/PesWriter.py:write", "pyembroidery/JefWriter.py:write"]}
{"id": "C133", "title": "Positions and counts in headers fit the bytes that follow", "statement": "A machine that goes by the header finds what it says. In a JEF file the first field is the position of the stitches, and from there to the end there are two bytes for each of the points counted in the header. In an XXX file the field at 0xFC is the position at which the stitches end: the end mark and then the colours stand there. A DST file has three bytes for each command and, for each trim, three for each further jump, and the count ST is the number of records. A U01 file has 256 bytes of header and three for each command that is written.", "quantifier": "every design that is saved, with files below 2^32 bytes; for DST every trim_at; for U01 designs that end with their only END", "why_tests_cant": "The counts are computed by code of their own, separate from the code that writes the stitches; both must agree for unbounded designs and each mix of commands.", "anchors": ["pyembroidery/JefWriter.py:get_jef_thread_count/write", "pyembroidery/XxxWriter.py:write", "pyembroidery/DstWriter.py:write", "pyembroidery/U01Writer.py:write"]}
{"id": "C134", "title": "append_translation moves what is entered afterwards by the given amount", "statement": "After append_translation(x, y) everything entered afterwards is normalized as if it had been entered moved by (x, y); what was entered before stays where it is, and nothing else changes.", "quantifier": "every pattern, amount and list of commands entered afterwards; all settings", "why_tests_cant": "The amount is entered as a command whose meaning is only decided by the encoder, and the entry depends on the position entered last; tests that start at the origin do not see it.", "anchors": ["pyembroidery/EmbPattern.py:EmbPattern.append_translation", "pyembroidery/EmbPattern.py:EmbPattern.add_stitch_relative", "pyembroidery/EmbEncoder.py:Transcoder.transcode_main"]}
{"id": "C135", "title": "An XXX file saved, loaded and saved again is the same file", "statement": "Saving a design as XXX, loading the file and saving what was loaded, threads included, with the same settings gives the same file byte for byte: stitches, header (counts, size, end and outline) and colours.", "quantifier": "all designs, thread lists and settings of the XXX kind (limits 124, rounding, colour changes)", "why_tests_cant": "The header is computed from the normalized design with its fractions, the second one from what was rounded for the file; that counts, outline and end agree has to be known for all designs.", "anchors": ["pyembroidery/XxxWriter.py:write", "pyembroidery/XxxWriter.py:write_xxx_header_b", "pyembroidery/XxxWriter.py:write_xxx_stitches", "pyembroidery/XxxReader.py:read", "pyembroidery/EmbEncoder.py:Transcoder.transcode"]}
{"id": "C136", "title": "get_as_stitches lists everything, and the counts are those of the list", "statement": "get_as_stitches yields one entry for each command in order: its number, its position, and the command, thread, needle and order its word holds. Entering the listed commands again with encode_thread_change gives the same pattern. count_stitch_commands (and so count_color_changes and count_needle_sets) is the number of entries with that command, and the counts of all commands add up to count_stitches.", "quantifier": "every pattern; for entering again, command words of four bytes", "why_tests_cant": "The words pack four fields with an offset for absent values; a test lists a few combinations.", "anchors": ["pyembroidery/EmbPattern.py:get_as_stitches", "pyembroidery/EmbPattern.py:count_stitch_commands", "pyembroidery/EmbPattern.py:count_color_changes", "pyembroidery/EmbPattern.py:count_needle_sets", "pyembroidery/EmbPattern.py:count_stitches", "pyembroidery/EmbFunctions.py:decode_embroidery_command", "pyembroidery/EmbFunctions.py:encode_thread_change"]}
