{"id": "C01", "title": "Fixed-width integers survive a write/read cycle anywhere in a buffer", "statement": "Serializing any u8/i8/u16/i16/u32/i32/i64/uint24/tag and deserializing it returns the same value, wherever the bytes sit in a larger buffer; the reader advances by exactly the number of bytes written and never looks at other bytes. A uint24 above 2^24-1 is refused with an error instead of being truncated.", "quantifier": "every value of every primitive type, every prefix and suffix of bytes around it", "why_tests_cant": "2^16..2^64 values times arbitrary surrounding buffers; a test samples a few constants", "anchors": ["crates/otspec/src/lib.rs: serialize_for_primitive/deserialize_primitive macros, ReaderContext::consume", "crates/otspec/src/types.rs: uint24, Tag"]}
{"id": "C02", "title": "Counted arrays round-trip, and the count prefix is honest exactly up to its width", "statement": "A length-prefixed array (16-bit or 32-bit count) of any element type that itself round-trips reads back as the same array, consuming exactly its own bytes, provided the length fits the prefix; with more elements than the prefix can hold, the array is silently cut to length mod 2^16.", "quantifier": "every element type with a correct codec, every array", "why_tests_cant": "needs all lengths including ones near 65536 and all element codecs at once", "anchors": ["crates/otspec/src/types.rs: Counted", "crates/otspec/src/counted.rs: Counted, Counted32", "crates/otspec/src/lib.rs: de_counted"]}
{"id": "C03", "title": "Reading never goes backwards past or beyond the buffer for sequential readers", "statement": "A successful sequential primitive or counted read consumes bytes that exist in the buffer: it succeeds exactly if the bytes are there, then moves the cursor by exactly the width read, and otherwise returns an error, never a panic.", "quantifier": "every buffer, cursor and requested width/count", "why_tests_cant": "all truncation points of all buffers", "anchors": ["crates/otspec/src/lib.rs: ReaderContext::consume_or_peek, consume, peek, Deserialize for Vec"]}
{"id": "C04", "title": "F2DOT14 and Fixed values round-trip through their packed form", "statement": "Every packed F2DOT14 value decodes and re-encodes to the same 16-bit word; every value from -2 to 2 - 2^-14 can be written, and values from 2 up or from -2 - 2^-14 down are refused with an error. Every Fixed whose packed 32-bit value has magnitude at most 2^23 re-encodes to the same word, and so does every larger even one with at most 24 significant bits, in particular every whole number from -32768 to 32767; odd packed values of larger magnitude never do (except the saturating maximum). For any finite single-precision number: a Fixed field of magnitude up to 128 gets the nearest multiple of 1/65536, halves upwards, with the single exception of 2^-17 - 2^-41, which becomes 1/65536; between 128 and 32768 the number itself comes back or the next multiple above; from there on the largest or smallest is stored. An F2DOT14 field gets the nearest multiple of 1/16384 exactly from -2 - 2^-15 up to below 2 - 2^-15 (exception: 2^-15 - 2^-39), and anything else is refused.", "quantifier": "all 2^16 (F2DOT14) and 2^32 (Fixed) packed values, for any round-to-nearest single precision rounding", "why_tests_cant": "rounding behaviour depends on the magnitude of the value; unit tests check one or two round numbers", "anchors": ["crates/otspec/src/types.rs: ot_round, Fixed, F2DOT14"]}
{"id": "C05", "title": "Serialized object graphs place every child exactly where its offset says", "statement": "When a table with (nested) offsets is serialized, every offset field holds the distance from the start of the table that owns it to the start of the bytes of the linked table, null links hold zero, each linked table's bytes occur contiguously there, tables do not overlap and together make up the output. Serialization succeeds exactly when every distance fits its offset field (in particular for every table of at most 65535 bytes in total); otherwise it reports an error, or panics if the field is an optional one, and never writes a wrong offset.", "quantifier": "every finite tree of tables with any number of offset fields, any sizes, any depth", "why_tests_cant": "structural induction over arbitrary trees and sizes, including the boundary where a distance exceeds 65535", "anchors": ["crates/otspec/src/offsetmanager.rs: OffsetManager", "crates/otspec/src/offsets.rs: Offset::set, serialize_offset", "crates/otspec_macros/src/ser.rs"]}
{"id": "C06", "title": "Following an offset reads the table at base+offset and leaves the cursor after the offset field", "statement": "Deserializing a non-null 16-bit offset field yields the table located at (start of enclosing table + offset), restores the cursor to just after the field, and a null field yields no table. The same claim for 32-bit offsets holds only for offsets up to 65535: a larger 32-bit offset makes the reader panic.", "quantifier": "every buffer, base, field position, offset value and linked codec", "why_tests_cant": "quantifies over buffers larger than 64 KiB and over nesting of bases", "anchors": ["crates/otspec/src/offsets.rs: Deserialize for Offset", "crates/otspec/src/lib.rs: follow_offset, push, pop, top_of_table"]}
{"id": "C07", "title": "Coverage tables preserve the glyph list", "statement": "Serializing any strictly ascending glyph list as a coverage table and reading it back yields the same list, and the smaller of the two encodings is written (ranges only when strictly fewer bytes), with each range record carrying the coverage index of its first glyph. The one exception is exact: if the list contains glyph 65535 and the range encoding is chosen, reading the table back panics. Any list at all (ascending or not) survives when the list encoding is the shorter one; a glyph 65535 before the last place makes the writer panic.", "quantifier": "every strictly ascending list of 16-bit glyph ids", "why_tests_cant": "format choice depends on run structure of arbitrary lists", "anchors": ["crates/otspec/src/layout/coverage.rs: Coverage::to_bytes, from_bytes, as_consecutive, most_efficient_format"]}
{"id": "C08", "title": "Class definitions preserve the class of every glyph", "statement": "Serializing a class definition (a map from glyph to class) whose last glyph is at most 65533 and which has at most 21845 runs, and reading it back, gives every glyph the same class as before (class 0 when unlisted), and the smaller encoding is written; with a larger last glyph the writer panics. The set of glyphs reported for a non-zero class is unchanged by the round trip; the set reported for class 0 can change.", "quantifier": "every finite map from 16-bit glyph ids to 16-bit classes and every queried glyph id", "why_tests_cant": "format 1/format 2 choice, gaps, runs, and 0xFFFF boundary interact", "anchors": ["crates/otspec/src/layout/classdef.rs: ClassDef::to_bytes, from_bytes, as_consecutive"]}
{"id": "C09", "title": "Device tables preserve hinting deltas", "statement": "A device table with delta format 0..3 and one delta per size between start and end reads back with every delta replaced by its low 2^format bits read as a signed number, hence reads back equal exactly when every delta fits the format's width. Any other stored format panics on write. The format the library suggests for a list of deltas is wide enough exactly if all deltas are in two-bit range, or there is a first delta outside -3..2 and either this one is outside -9..8 or all deltas are in four-bit range; otherwise values are silently lost.", "quantifier": "every ppem range and delta list, every format", "why_tests_cant": "bit packing across word boundaries for every length", "anchors": ["crates/otspec/src/layout/device.rs"]}
{"id": "C10", "title": "Value records round-trip under their own flags, and simplification preserves the adjustment", "statement": "A value record written with the format computed from its own contents takes two bytes per present field and reads back equal, provided its device tables are well formed and it has an y-placement device exactly if it has an x-placement device; otherwise it can never read back equal, because the format announces the y-placement device according to the presence of the x-placement device. Dropping explicit zero fields never changes the adjustment and leaves a format with exactly the non-zero fields. Bringing records to a common format changes no adjustment, and (for records without devices) gives all of them the union of the formats.", "quantifier": "every combination of present/absent fields and field values", "why_tests_cant": "2^8 field patterns times all values", "anchors": ["crates/otspec/src/layout/valuerecord.rs: ValueRecord::flags, from_bytes, to_bytes, simplify, coerce_to_format"]}
{"id": "C11", "title": "Single substitutions keep their meaning across the compact/long format choice", "statement": "Converting a single-substitution map to its binary subtable and back yields the same map, whichever format is chosen, for every map of 16-bit glyph ids, with one exact exception: if all entries move by the same amount modulo 2^16 (so the compact format is chosen) and some entry moves by a signed distance that does not fit 16 bits, reading the subtable back panics. Apart from that exception the same holds through the bytes, wherever they are placed, if the glyphs can be written as a coverage table (C07).", "quantifier": "every finite map of glyph ids to glyph ids", "why_tests_cant": "the delta format relies on 16-bit wrap-around; overflow only occurs for particular glyph ids", "anchors": ["src/layout/gsub1.rs: SingleSubst best_format, to_lowlevel, from_lowlevel"]}
{"id": "C12", "title": "Multiple and alternate substitutions keep their meaning", "statement": "Converting a multiple or alternate substitution map to its binary subtable and back yields the same map; this holds down to the bytes whenever each replacement list has at most 65535 glyphs and the covered glyphs can be written as a coverage table.", "quantifier": "every finite map from glyph ids to glyph id lists", "why_tests_cant": "arbitrary maps and list lengths", "anchors": ["src/layout/gsub2.rs", "src/layout/gsub3.rs"]}
{"id": "C13", "title": "Ligature substitutions keep their rules and are ordered longest first", "statement": "Converting a ligature map whose sequences are all non-empty to binary form and back yields the same map; so does writing and reading it, if there are at most 65535 sequences of at most 65535 glyphs and none starts with glyph 65535. A shaper applying the written subtable to any text picks a ligature of maximal length among those whose sequence starts the text, and none only if there is none. A map with an empty sequence makes the conversion panic.", "quantifier": "every finite map from non-empty glyph sequences to glyph ids", "why_tests_cant": "arbitrary overlapping ligature sets", "anchors": ["src/layout/gsub4.rs: LigatureSubst to_lowlevel, from_lowlevel"]}
{"id": "C14", "title": "Contextual rules: lookups per position are kept, chained rules survive serialization, plain ones never can", "statement": "Converting a contextual rule of at most 65536 positions to lookup records and back preserves, for each position, the lookups to apply and their order; the order between records of different positions is not kept. Chained contextual rules and reverse chaining substitutions survive a write/read cycle down to the bytes if their glyph sets are ascending and can be written as coverage tables (C07) and their counts fit 16 bits. A coverage-based plain context subtable with at least one input glyph always fails to serialize.", "quantifier": "every sequence of positions and per-position lookup lists", "why_tests_cant": "arbitrary rule shapes; the failure is for all rules, not one", "anchors": ["src/layout/contextual.rs: collate_lookup_records, to_format3", "crates/otspec/src/layout/contextual.rs: SequenceContextFormat3"]}
{"id": "C15", "title": "Pair positioning keeps every pair's adjustment if all records use the same fields", "statement": "A pair positioning rule without device tables whose first records all have non-zero values in the same fields, and whose second records do too, whose first glyphs can be written as a coverage table (C07) and have at most 65535 pairs each, keeps both adjustments of every glyph pair when it is converted, written and read; a zero and an absent value are the same adjustment. Without the same fields a rule can become unreadable, or be read as a rule for other pairs and values.", "quantifier": "every finite map of glyph pairs to pairs of value records, wherever the subtable is placed", "why_tests_cant": "arbitrary maps; corruption only occurs when records have different fields", "anchors": ["src/layout/gpos2.rs: split_into_two_layer, to_format_1, from_lowlevel", "crates/otspec/src/layout/gpos2.rs"]}
{"id": "C16", "title": "Mark attachment keeps every anchor up to the largest class in use", "statement": "Mark-to-base and mark-to-mark subtables whose marks and bases can each be written as a coverage table (C07) keep, when converted, written and read, each mark's class and anchor, and each base's anchors for exactly the classes up to the largest class of any mark; anchors of higher classes are lost. A mark of class 65535 makes the conversion panic.", "quantifier": "every finite set of marks and bases with any classes", "why_tests_cant": "arbitrary class sets, including ones with gaps", "anchors": ["src/layout/gpos4.rs", "src/layout/gpos6.rs", "crates/otspec/src/layout/gpos4.rs", "crates/otspec/src/layout/gpos6.rs"]}
{"id": "C17", "title": "Script, language and feature lists keep their structure", "statement": "Converting a language system to binary form and back keeps the feature indices modulo 2^16 and the required feature index modulo 2^16 unless that is 65535, in which case it is lost. For script and feature lists whose indices are below 2^16 (required feature not 65535), with printable tags and at most 65535 entries per list, writing and reading keeps tags, languages, required feature and indices, in order; feature parameters are always lost. A record with a null offset makes reading panic.", "quantifier": "every finite script/language map and feature list", "why_tests_cant": "sentinels and truncation at 2^16", "anchors": ["src/layout/common.rs: LanguageSystem, Script, ScriptList, FeatureList"]}
{"id": "C18", "title": "Every saved font with a head table sums to the magic checksum", "statement": "For any table set containing a head table, whenever saving succeeds the 32-bit big-endian word sum of the bytes of the saved font file (mod 2^32) is 0xB1B0AFBA. Saving succeeds exactly for fewer than 4096 tables with no head table shorter than 12 bytes.", "quantifier": "every set of tables with arbitrary tags, contents and lengths", "why_tests_cant": "depends on alignment and padding of every table and on where head lands", "anchors": ["src/font.rs: checksum, Font::to_bytes"]}
{"id": "C19", "title": "Saving and reloading a font preserves every table byte for byte", "statement": "Reading back the bytes of a saved font with version 1.0 or OTTO gives the same version, the same tags in the same order and, for each tag, the same table bytes (for head: except the four checksum adjustment bytes).", "quantifier": "every table set of fewer than 4096 tables whose total size is below 4 GiB", "why_tests_cant": "arbitrary numbers and lengths of tables", "anchors": ["src/font.rs: Font::to_bytes, from_bytes", "src/table_store.rs: TableSet"]}
{"id": "C20", "title": "The table directory is sorted, aligned, in bounds and non-overlapping", "statement": "In a saved font every table starts at a multiple of four, the directory is sorted by tag, records the right length and checksum, and the padded extents follow each other without gap or overlap and stay in the file.", "quantifier": "every table set", "why_tests_cant": "arbitrary table lengths", "anchors": ["src/font.rs: Font::to_bytes"]}
{"id": "C21", "title": "Directory search fields are the OpenType binary-search parameters", "statement": "For n tables, searchRange is 16 times the largest power of two not above n, entrySelector its log, rangeShift the remainder; this holds for 1 <= n < 4096 and the computation overflows from 4096 on.", "quantifier": "every number of tables", "why_tests_cant": "a test checks one n; the boundary at 4096 is where 16-bit arithmetic overflows", "anchors": ["src/font.rs: get_search_range"]}
{"id": "C22", "title": "Loading a font crashes exactly when a directory entry points outside the file", "statement": "Slicing a font file into its tables reports an error exactly when the header or directory is incomplete, has an unknown version or a non-printable tag. With a readable directory, the tables are loaded if every entry lies inside the file; if some entry reaches past the end of the file the loader panics instead of reporting an error.", "quantifier": "every byte sequence", "why_tests_cant": "hostile inputs cannot be enumerated", "anchors": ["src/font.rs: from_bytes"]}
{"id": "C23", "title": "Tables that were not touched are saved unchanged", "statement": "After any history of operations on a font (parsing tables, modifying values obtained from it, inserting and removing other tables, taking the table out and putting it back as it was), a table whose contents were never replaced by an insert is either no longer present or written back byte-identical, even if it was parsed and even if a copy of its parsed value was modified.", "quantifier": "every history of load/read/insert/remove operations", "why_tests_cant": "depends on the interleaving of accesses", "anchors": ["src/table_store.rs: TableSet, CowPtr, write_table, is_serialized"]}
{"id": "C24", "title": "A table set behaves as a map, and clones are independent", "statement": "Everything a caller observes from any history of operations on a table set is as if each variable and each table owned an independent value: modifying a table through one variable changes that variable as intended, and no other variable, no table of the font, and nothing that would be saved. Looking up a tag returns the value of the last insert of that tag if it was not removed since (for raw bytes, a parse of exactly these bytes), and nothing after a remove.", "quantifier": "every operation history and every pair of holders", "why_tests_cant": "aliasing depends on history", "anchors": ["src/table_store.rs: TableSet insert/remove/contains, CowPtr as_mut"]}
{"id": "C25", "title": "Saving a font after changing glyphs keeps glyf, loca and head consistent, but not the glyph count", "statement": "After the outline table is replaced (at any point of any history) and the font is saved, the file contains the compiled glyphs and a loca with one entry per glyph plus one; locations are 32-bit exactly when the glyph data is longer than 65535 bytes; and the file's head table is the font's head with the location format set accordingly (and the checksum adjustment). The glyph count in the file's maxp is the one the font had before: it equals the number of glyphs only if it did so already.", "quantifier": "every glyph list, glyph codec, font state reachable by any history of operations", "why_tests_cant": "interplay of four tables", "anchors": ["src/table_store.rs: compile_glyf_loca_maxp"]}
{"id": "C26", "title": "Outlines compiled into glyf/loca are found again at their offsets", "statement": "For every list of serializable glyphs, slicing the compiled outline data by consecutive loca entries gives each glyph's own bytes (followed only by fewer than four zero bytes), empty glyphs give empty slices, there is one entry per glyph plus one, offsets are multiples of four, 32-bit offsets are used exactly when the data exceeds 65535 bytes, and reading loca then glyf returns the glyphs. Data beyond 32-bit offsets makes saving panic.", "quantifier": "every list of glyph byte strings", "why_tests_cant": "arbitrary number and sizes of glyphs around the 64K/128K threshold", "anchors": ["src/table_store.rs: compile_glyf_loca_maxp", "src/tables/loca.rs: from_bytes"]}
{"id": "C27", "title": "Horizontal metrics round-trip with trailing-advance compression", "statement": "Writing horizontal metrics and reading them back with the reported number of full metrics returns the same metrics for every non-empty list of up to 65535 glyphs; the number reported equals the one stored in hhea and is the smallest that keeps every advance. Reading with zero full metrics (an empty list) always panics; 65536 glyphs with distinct final advances make the count wrap to zero.", "quantifier": "every metrics list", "why_tests_cant": "compression depends on the tail structure of the list", "anchors": ["src/tables/hmtx.rs: to_bytes, number_of_hmetrics, from_bytes"]}
{"id": "C28", "title": "Simple outlines round-trip", "statement": "Every byte string which is a valid OpenType description of a simple glyph, whichever way its flags are repeated and its steps are stored, is read as the glyph it describes. Writing a glyph without components, whose first contour is not empty, with at most 32767 contours, 32767 points per contour, 32768 points, 32767 instruction bytes and steps between neighbouring points which fit 16 bits, gives a valid description of it, so reading back gives the same contours, on-curve marks, bounding box and instructions; only the overlap mark is lost. Larger steps or more points panic.", "quantifier": "every simple glyph with any number of contours and points", "why_tests_cant": "delta/flag encoding has data-dependent widths", "anchors": ["src/tables/glyf/glyph.rs: Serialize, Deserialize, _compile_deltas_greedy, end_points", "src/tables/glyf/point.rs"]}
{"id": "C29", "title": "Composite glyphs round-trip", "statement": "Every byte string which is a valid OpenType description of a composite glyph is read as the glyph it describes. Writing a glyph whose components have whole 16-bit offsets (or matched points and no offset) and 2.14 fixed-point scales gives a valid description, and reading it back gives the same bounding box, instructions, and for each component the same glyph, transformation, matched points and meaningful flags. Fractions of offsets, offsets beside matched points, and contours beside components are dropped.", "quantifier": "every list of components the format can hold, every bounding box and instruction list", "why_tests_cant": "byte/word choice depends on values", "anchors": ["src/tables/glyf/component.rs", "src/tables/glyf/glyph.rs: Serialize, Deserialize"]}
{"id": "C30", "title": "Implied on-curve points carry no information", "statement": "Making implied on-curve points explicit succeeds exactly if the coordinate sums of neighbouring off-curve points fit 16 bits and the contour is not empty (otherwise it panics); it then keeps all original points in order, adds exactly one on-curve point halfway between each two neighbouring off-curve points, and leaves no two neighbouring off-curve points, except that the last and the first point of the closed contour are not taken as neighbours. Removing implied points afterwards has the same outcome as removing them from the original; removal keeps exactly the points which are not on-curve points halfway between two off-curve neighbours in the closed contour, and does not change the outline (the curves drawn by the contour, with middles in whole units).", "quantifier": "every contour", "why_tests_cant": "arbitrary on/off patterns", "anchors": ["src/tables/glyf/contourutils.rs"]}
{"id": "C31", "title": "Recomputed bounds contain every point tightly", "statement": "In every table whose components refer to existing glyphs, recomputing bounds succeeds and keeps all outlines; every glyph without components gets the smallest box which contains its points (the zero box if it has none); a composite glyph gets the box of the first component marked 'use my metrics', or else, as long as the moved boxes of its components fit 16 bits, a box which contains every point of every component moved by its transformation: exactly if the transformations are whole, to within one unit otherwise. It is no larger than needed: each side is, cut off towards zero, a coordinate of a moved corner of the box of a component.", "quantifier": "every glyph table without dangling references", "why_tests_cant": "arbitrary point sets", "anchors": ["src/tables/glyf.rs: recalc_bounds", "src/tables/glyf/glyph.rs: bounds"]}
{"id": "C32", "title": "Decomposing composites composes transforms and terminates", "statement": "Flattening nested components always terminates. It panics exactly if a reference to a missing glyph is met within 64 levels of nesting; otherwise it gives, for each leaf at most 64 levels down and in order, the composition of the transformations on the path to it, and nothing else: deeper parts, among them those a cycle leads to, are dropped. Flattening a whole table leaves only references to glyphs without components and changes nothing else.", "quantifier": "every component graph, including cyclic ones", "why_tests_cant": "arbitrary nesting depth and cycles", "anchors": ["src/tables/glyf.rs: flat_components, flatten_components"]}
{"id": "C33", "title": "Exactly which character maps survive segmented coverage (format 12)", "statement": "Saving a code-point map as a segmented-coverage subtable and reading it back yields the same map exactly if the smallest code point is 0, its glyph is not 0, the next entry has a different glyph, and no entry other than the first and last has glyph 65535. A map whose smallest code point is not 0 is written so that every code point except the smallest one is found by an OpenType lookup, and reading the saved subtable with the library itself panics. Building fails (always by panicking) exactly for the empty map, a first glyph of 0, or glyph 65535 in the middle.", "quantifier": "every finite map from 32-bit code points to glyph ids, every platform, encoding and language", "why_tests_cant": "group merging depends on adjacency of codes and glyph ids in arbitrary maps", "anchors": ["src/tables/cmap.rs: cmap12::from_mapping, to_mapping"]}
{"id": "C34", "title": "Character maps (format 4) keep every mapping up to 65535 bytes", "statement": "A map that is saved as a segment-to-delta subtable in at most 65535 bytes is read back unchanged, wherever in the table the subtable lies; looking any 16-bit code up in the bytes the way OpenType defines gives the glyph of the map, or 0; the length and search fields are right. This covers every nonempty map of at most 6551 codes below 0xFFFF in which glyph 65535 is not followed by the next code. A subtable of more than 65535 bytes is written without an error, and reading it does not give the map back. Empty maps and codes of 0xFFFF and above panic.", "quantifier": "every finite map from 32-bit codes to glyph ids, every platform, encoding and language", "why_tests_cant": "segment splitting heuristics depend on arbitrary run structure", "anchors": ["src/tables/cmap.rs: cmap4::from_mapping, to_mapping, split_range"]}
{"id": "C35", "title": "The best character map is chosen by a fixed priority", "statement": "The mapping chosen for a font is that of the first subtable for the most preferred platform/encoding pair that the table has at all, in the order (3,10), (0,6), (0,4), (3,1), (0,3), (0,2), (0,1), (0,0); none is returned exactly if no subtable has any of these pairs.", "quantifier": "every list of subtables", "why_tests_cant": "arbitrary combinations of subtables", "anchors": ["src/tables/cmap.rs: get_best_mapping, get_mapping"]}
{"id": "C36", "title": "The reversed character map is the exact inverse relation", "statement": "A code point is listed under a glyph in the reversed map exactly if some Unicode subtable (platform 0, or platform 3 with encoding 0, 1 or 10) maps that code point to that glyph; each glyph has one entry and no entry is empty.", "quantifier": "every cmap", "why_tests_cant": "arbitrary relations", "anchors": ["src/tables/cmap.rs: reversed"]}
{"id": "C37", "title": "Packed variation deltas round-trip", "statement": "Writing a delta list divides it into runs as OpenType defines them and reading back that many deltas returns the same list and consumes exactly the written bytes, whenever the list has no run of 256 or more consecutive zeros; such a run makes the writer fail. Any division of a list into OpenType runs is read.", "quantifier": "every list of 16-bit deltas", "why_tests_cant": "run splitting at 64, zero runs at 255/256, mixed byte/word runs", "anchors": ["src/otvar/packeddeltas.rs: to_bytes, from_bytes"]}
{"id": "C38", "title": "Packed point numbers round-trip", "statement": "A list of point numbers is written exactly if it never decreases; otherwise the writer panics. A written list is read back as itself exactly if it has 1 to 127 or 32768 to 65535 points and the first point and all steps are at most 255, and then reading consumes exactly the written bytes, whatever surrounds them; up to 127 such points are written as OpenType defines it. Every OpenType encoding of 1 to 127 points, or of all points, is read, whatever its runs. The empty list reads back as \"all points\".", "quantifier": "every list of point numbers, every surrounding buffer", "why_tests_cant": "the count prefix, run length and byte/word choice each have boundaries", "anchors": ["src/otvar/packedpoints.rs: to_bytes, from_bytes"]}
{"id": "C39", "title": "Tuple variation headers round-trip", "statement": "Every header that OpenType allows is read and written back as the same bytes. A header whose tuples are 2.14 numbers, present exactly if their flags say so, with a shared index below 4096 and no other index in the flags, reads back equal, except that the flags word then also holds the index. A header with a flag whose tuple is missing is never written, and makes the writer panic if the coordinates are in the range of 2.14 numbers; all other headers with coordinates in that range are written. A header which was read and is given another shared index is written with a mixture of both.", "quantifier": "every header, every axis count", "why_tests_cant": "flag/index bit overlap for all values", "anchors": ["src/otvar/tuplevariationheader.rs"]}
{"id": "C40", "title": "Tuple variation stores round-trip", "statement": "Every tuple variation store with one-byte point counts is read as OpenType defines it (shared or private points, any runs). A store is written as OpenType defines it, with the right offset and sizes, and read back gives the same deltas at the same points and the same regions, for fewer than 4096 tuples, headers of at most 65531 bytes, no 256 zeros in a row, and omitted deltas only if 1 to 127 deltas remain at points with steps of at most 255. A tuple with all deltas omitted, or with all deltas given and the private-points flag set, is not read back.", "quantifier": "every store of any tuples and any pattern of omitted deltas within the stated limits, for gvar and cvar", "why_tests_cant": "composition of count, header, points and delta encodings", "anchors": ["src/otvar/tuplevariationstore.rs: to_bytes, from_bytes"]}
{"id": "C41", "title": "Delta interpolation keeps explicit deltas and yields one delta per point", "statement": "Expanding the omitted deltas of a contour returns exactly one delta per point, the given delta at every explicit point, and zero everywhere if no delta is explicit. Every other delta is inferred, per coordinate, from the nearest explicit points before and after it going round the contour: the delta of the lower reference at or below it, of the upper one at or above it, and in between a value between the two deltas within 1 + 1/128 of linear interpolation; references at the same place give their common delta or zero. It returns exactly if the differences of the reference coordinates and deltas fit sixteen bits.", "quantifier": "every contour and every pattern of explicit deltas", "why_tests_cant": "arbitrary patterns, cyclic wrap-around", "anchors": ["src/otvar/iup.rs: iup_segment, iup_contour"]}
{"id": "C42", "title": "Delta optimisation is lossless", "statement": "Whenever the optimiser returns, for a contour or a whole glyph, interpolating the deltas it dropped gives back exactly the original deltas. For contours whose coordinates and deltas fit fifteen bits it returns exactly if the contour moves as a whole, or has at most 8191 points, or has at most 32767 points of which one stands out from its neighbours (so that its delta has to be kept); otherwise it panics. Deltas or coordinates whose differences do not fit sixteen bits can make it panic, too.", "quantifier": "every contour of any number of points, every glyph, any deltas", "why_tests_cant": "the optimiser is a dynamic program with rotation; correctness needs an invariant over all chains", "anchors": ["src/otvar/iup.rs: iup_contour_optimize, _iup_contour_optimize_dp, _iup_contour_bound_forced_set, rotate_list, can_iup_between"]}
{"id": "C43", "title": "A region's influence is between 0 and 1, is 1 at its peak and 0 outside", "statement": "The contribution of a variation region of single-precision numbers at any location lies in [0,1], equals 1 where every participating axis is at its peak, and is 0 as soon as one participating axis is at or outside the region's bounds and at least f32::EPSILON from its peak (nearer than that to the peak the axis counts as being at it, even outside the bounds). On F2DOT14 coordinates it is within n*2^-24 of the product of tents which the OpenType specification gives, n being the number of axes of the region.", "quantifier": "every location and every region", "why_tests_cant": "real-valued inputs", "anchors": ["src/otvar/locations.rs: support_scalar"]}
{"id": "C44", "title": "The variation model reproduces every master exactly", "statement": "In exact arithmetic, deltas computed from master values, weighted by the influence of their regions and summed at a master's own location, give back that master's value, provided that in the order of the model, of two earlier masters lying in the box of a third, the later one is between the other two on every axis. This covers all layouts where masters move one axis each, all layouts of corners, and all where no master has two others in its box. Outside that condition it fails: five masters of two axes are given for which a master's value 0 is interpolated to 40/3, because a second cut of a region on an axis overwrites the first.", "quantifier": "every list of master locations distinct from each other in [-1,1], with coordinates equal or more than f32::EPSILON apart; every list of values, some possibly missing", "why_tests_cant": "arbitrary master layouts; needs the triangular structure of supports", "anchors": ["src/otvar/locations.rs: VariationModel::new, _compute_master_supports, _compute_delta_weights, get_deltas_and_supports"]}
{"id": "C45", "title": "Item variation stores round-trip", "statement": "Item variation data with one delta per region in every row reads back equal wherever it is put, and data in the OpenType layout with any number of two-byte columns reads as the rows it describes. A row of another width is written without complaint and corrupts the data; above 65535 rows only the count modulo 65536 is read. Region lists with true counts read back with coordinates rounded to F2DOT14. A store made of these, of at most 65535 bytes, is written in the expected number of bytes and reads back equal except that its format becomes 1; it is written up to four gigabytes, but if the region list extends beyond 65535 bytes reading panics, and a coordinate outside F2DOT14 makes writing panic. A store with a null offset to its regions or to its data makes reading panic.", "quantifier": "every store, region list, matrix of deltas and every mixture of one- and two-byte columns", "why_tests_cant": "arbitrary matrix sizes", "anchors": ["src/otvar/itemvariationstore.rs"]}
{"id": "C46", "title": "Pinning axes keeps the interpolated result", "statement": "When axes are pinned, each deltaset gives, at every location of the axes left free, the contribution it had with the pinned axes at their coordinates, within 1 + (A+1)/512 units for A pinned axes; deltasets are left out only for want of influence (and always if the specification gives them none). With every axis pinned, if the instancer returns, every outline point has moved by the sum of those contributions at the normalised location, all else about the glyph is kept, and fvar, avar and gvar are gone. It returns when some deltaset has influence, deltas cover all points and sums fit 16 bits. It panics when an axis is left free or limited and a glyph varies, and when no deltaset of a varying glyph has influence; components of composites never move; and since values are normalised without the default (C49), pinning an axis to its default moves outlines.", "quantifier": "every set of variations, every pinned location, every font whose tables parse", "why_tests_cant": "real-valued locations and rounding at every step; the panics depend on which deltasets overlap the location", "anchors": ["src/otvar/instancer.rs: pin_tuple_variation_axes, instantiate_gvar, instantiate_variable_font", "src/tables/gvar.rs: DeltaSet::scale_deltas, DeltaSet::combine"]}
{"id": "C47", "title": "Axis value maps hit their points, do not decrease and interpolate in straight lines", "statement": "An avar segment map whose F2DOT14 `from` coordinates increase strictly from (-1,-1) to (1,1) and whose `to` coordinates do not decrease answers every F2DOT14 value, sends each listed point exactly to its listed value, never decreases, stays in [-1,1], and between neighbouring points lies within 2^-20 of the straight line. SegmentMap::new accepts an F2DOT14 map exactly if its `to` coordinates do not decrease and it has each of (-1,-1), (0,0), (1,1) exactly once, and panics otherwise. is_valid does not check the order of `from`, and a map it accepts can make the lookup panic. A designspace axis map over i32 inputs sends each listed point exactly to its listed value, is the identity if empty, never decreases if its outputs do not (numbers up to 2^20), runs along the straight line between neighbours and parallel to the identity outside, within 2^-20 of the size of the numbers. Fractional inputs are truncated to form keys, so two points can fall together.", "quantifier": "every such map and every value, in f32 arithmetic", "why_tests_cant": "real-valued inputs", "anchors": ["crates/designspace/src/lib.rs: piecewise_linear_map", "src/tables/avar.rs: SegmentMap::piecewise_linear_map"]}
{"id": "C48", "title": "avar and fvar tables read back as written", "statement": "An avar table whose maps (at most 65535, of at most 65535 points) are written reads back with every coordinate rounded to F2DOT14, and exactly when the coordinates are F2DOT14 values; it is written if all coordinates lie between -2 and 2 - 2^-14, and refused if one is 2 or more, or -2 - 2^-14 or less. An fvar table with valid tags, representable Fixed values, one coordinate per axis in every instance, PostScript names on all instances or none, and counts that fit, is written to exactly 16 + 20 bytes per axis + 4 (6 with names) plus 4 per axis for every instance, has axis i at byte 16 + 20·i in OpenType's order, and reads back the same except that instance flags become 0. Mixed PostScript names are refused. Whatever is read has as many coordinates per instance as axes, so no other instance ever reads back.", "quantifier": "all axis maps, all axes and instances, any surrounding bytes and reader stack", "why_tests_cant": "the layout depends on the number of axes, instances and the presence of names together; unit tests check one fixed table", "anchors": ["crates/otspec/src/tables/avar.rs", "src/tables/avar.rs: avar, SegmentMap serialisation", "src/tables/fvar.rs: fvar::from_bytes, fvar::to_bytes, InstanceRecord"]}
{"id": "C49", "title": "Normalising an axis limit ignores the axis default", "statement": "The instancer's normalize (no avar map) sends, on an axis with min < max, every value to an F2DOT14 value in [0,1]: minimum and below to 0, maximum and above to 1, never decreasing, within 2^-14 of (value-min)/(max-min). Hence the axis default is not sent to 0 unless it is (nearly) the minimum: 400 on the axis 100/400/900 goes to 0.375. With an avar map keeping 0, minimum and maximum still go to 0 and 1. min > max panics. normalize_designspace_value of a mapped axis likewise gives the share between least and greatest output; as a result add_to_font panics for every mapped axis whose default is not mapped to the least output.", "quantifier": "every axis triple, every value, every axis map", "why_tests_cant": "real-valued inputs", "anchors": ["src/otvar/instancer.rs: normalize", "crates/designspace/src/lib.rs: normalize_designspace_value, add_to_font", "src/tables/avar.rs: SegmentMap::new"]}
{"id": "C50", "title": "Name records find their own strings", "statement": "A name table of at most 5460 records of known platforms and encodings, whose strings survive their encoding and whose string bytes are no longer and start no later than 65535, is written so that record i's length and offset fields delimit exactly its own string, and reads back equal whatever the header's format and storage offset say. UTF-16 records survive for every string, in particular those made by windows_unicode. Unknown platforms make the writer panic, and so do 5461 to 65535 records; more records never read back; a 65536 byte string reads back empty. The reader ignores the storage offset: a table with a gap before its strings is misread.", "quantifier": "every list of name records, every behaviour of the legacy encodings", "why_tests_cant": "offset accumulation over arbitrary records", "anchors": ["src/tables/name.rs: name::to_bytes, name::from_bytes, get_encoding, NameRecord::windows_unicode"]}
{"id": "C51", "title": "Post tables keep glyph names", "statement": "A version 2 post table with at most 65535 names, custom ones of at most 255 bytes and at most 65278 in number, reads back equal, whichever names are standard or custom, for versions in 32nds and representable italic angles. Tables of other versions read back equal but without names. Whatever is read holds only standard names and names of at most 255 bytes, so longer ones never survive. A version 2 table without names is written but cannot be read, and any reference to a name which is neither standard nor stored makes the reader panic.", "quantifier": "every list of glyph names and all field values", "why_tests_cant": "index/offset interplay of standard and custom names", "anchors": ["src/tables/post.rs: post::to_bytes, post::from_bytes", "crates/otspec/src/types.rs: Version16Dot16"]}
{"id": "C52", "title": "Fixed-layout tables round-trip", "statement": "hhea, gasp (up to 65535 ranges), cvt, fpgm and prep tables read back equal to what was written. head tables with any revision below 32768 do up to 1/65536 in the revision and fractions of seconds, and exactly when the revision is a 16.16 number of magnitude at most 128 and the dates are whole seconds within the calendar library's range; a stored date outside that range makes the reader panic. maxp tables read back equal exactly when their version number matches their layout.", "quantifier": "every field value and list", "why_tests_cant": "all field values", "anchors": ["src/tables/maxp.rs", "src/tables/head.rs", "src/tables/hhea.rs", "src/tables/gasp.rs", "src/tables/cvt.rs", "src/tables/fpgm.rs", "src/tables/prep.rs"]}
{"id": "C53", "title": "gvar tables keep each glyph's variation data apart and whole", "statement": "A gvar table is written as header, one 32-bit offset per glyph plus one, the different peaks (each once, frequent ones first), and the glyphs' data; glyph i's offset pair delimits exactly glyph i's data. Read back, glyph i has its own deltasets with the same peak, start, end and one delta per point (including deltas the writer left out as inferable), without deltasets that move nothing; if start and end both equal the peak the region comes back widened to the side of the axis. This holds if tuples are 2.14 numbers, there are at most 65534 glyphs, 4096 peaks and 127 kept points at steps of at most 255, no 256 zeros in a row, and the data is at least one tuple long (always with up to three axes, or if a moving deltaset has a start or end of its own); otherwise reading fails. Given outlines, so that inferable deltas can be left out, the table is never longer than with all deltas. Outlines and deltas of fifteen bits with contours of 1 to 8191 points are always written. A table without deltasets makes the writer panic; 65535 glyphs or short offsets for distances of 65536 or more make the reader panic.", "quantifier": "every gvar table and every order the peaks may be written in", "why_tests_cant": "arbitrary sizes, long/short offsets", "anchors": ["src/tables/gvar.rs"]}
{"id": "C54", "title": "Designspace normalisation maps user values into [-1,1] with default at 0", "statement": "Normalising a user-space designspace value always succeeds with a result in [-1,1], sends the default to 0, the minimum (if below the default) and anything below it to -1, the maximum (if above the default) and anything above it to 1, never decreases, and is within 2^-22 of the exact quotient. Axis values beyond 2^24 break this: on 1/16777219/16777219 the minimum goes below -1.", "quantifier": "every axis with min <= default <= max of size at most 2^24, and every value, in f32 arithmetic", "why_tests_cant": "real-valued inputs", "anchors": ["crates/designspace/src/lib.rs: normalize_userspace_value"]}
{"id": "C55", "title": "Rules read from contextual subtables match where the subtable says", "statement": "For every plain or chained contextual subtable of any format, the list of rules produced when reading it matches a glyph run exactly where the subtable itself matches it by the OpenType rules, with the same lookups at each position. For class-based formats this needs the run to start with a covered glyph and class tables without explicit class-0 entries: the reader ignores the coverage table there, and loses explicit class-0 glyphs; witnesses for both are given.", "quantifier": "for all subtables of formats 1, 2, 3 (plain and chained), all glyph runs and all preceding glyphs", "why_tests_cant": "Quantifies over all subtables and all texts; the class-based formats expand into one rule per class combination, and the two mismatches only show on particular class tables.", "anchors": ["src/layout/contextual.rs", "crates/otspec/src/layout/contextual.rs"]}
{"id": "C56", "title": "A GSUB table survives saving and loading", "statement": "Whenever a GSUB table whose rules, scripts and features fit the format is written successfully, reading the bytes gives the same lookups in the same order with the same flags and mark filtering sets, the same scripts and the same features. It is written exactly if every subtable ends up near enough to its owner for the offset field, in particular if it takes at most 65535 bytes, for which it is enough that its contents, counted generously (for instance four bytes for each glyph of a single substitution, ten for each ligature and two for each of its components), come to no more; then it also takes no more bytes than counted. Two things change, once: contextual subtables with several rules come back as one subtable per rule, and feature parameters are lost; a second save/load cycle changes nothing. A table containing a plain contextual rule with at least one input position can never be written.", "quantifier": "for all GSUB tables (any number of lookups of all seven kinds, scripts, languages, features) that fit", "why_tests_cant": "Quantifies over all tables, with five levels of nested offsets; tests compare a few fixed byte strings.", "anchors": ["src/tables/GSUB.rs", "crates/otspec/src/tables/GSUB.rs", "src/layout/common.rs"]}
{"id": "C57", "title": "Extension lookups are transparent", "statement": "If any selection of non-empty lookups of types 1 to 6 in a GSUB table is stored through extension subtables, reading gives exactly the same table as without extensions. Extension subtables of type 7 or more (including the legal type 8) are rejected with an error; an extension lookup without subtables or with subtables of different types makes the reader panic.", "quantifier": "for all fitting GSUB tables and all selections of lookups", "why_tests_cant": "Quantifies over all tables and all subsets of lookups; the library cannot write extensions itself.", "anchors": ["src/tables/GSUB.rs: extension_from_lowlevel", "crates/otspec/src/tables/GSUB.rs: ExtensionSubstFormat1"]}
{"id": "C58", "title": "Saving after changing glyphs rewrites the metric count but not the metrics", "statement": "After the outline table is replaced and the font is saved, hhea in the file contains the smallest possible number of full metrics, while hmtx keeps its old bytes. Reading the metrics of the file gives the font's metrics back if and only if the old number was already the smallest; otherwise there are too many, by exactly the difference.", "quantifier": "every font state reachable by any history, every hmtx and hhea", "why_tests_cant": "only fonts whose last advance widths repeat are affected", "anchors": ["src/table_store.rs: compile_glyf_loca_maxp", "src/tables/hmtx.rs: number_of_hmetrics, from_bytes"]}
{"id": "C59", "title": "hmtx, gvar and MATH cannot be saved once inserted", "statement": "If hmtx, gvar or MATH was inserted into the font as a value (a new one or one obtained from the font, modified or not) and neither inserted nor removed since, saving never succeeds.", "quantifier": "every font state, history and value", "why_tests_cant": "no test saves such a font", "anchors": ["src/table_store.rs: LoadedTable::to_bytes", "src/font.rs: write"]}
{"id": "C60", "title": "Saving an unmodified font writes the same tables", "statement": "If a font is only looked at (tables opened, cloned, their copies modified, but nothing inserted or removed), saving it gives exactly the bytes of the table set it was loaded with, provided it has a readable maxp table. Without a maxp table saving panics.", "quantifier": "every set of tables, every history without insertions and removals", "why_tests_cant": "quantifies over histories and arbitrary table bytes", "anchors": ["src/font.rs: write, to_bytes", "src/table_store.rs: compile_glyf_loca_maxp, compile_gsub_gpos, write_table"]}
{"id": "C61", "title": "Point numbering for glyph variations", "statement": "The points of a glyph as gvar numbers them are the points of its contours in order, then one point per component at its offset (truncated), then four phantom points at the origin; the contour ends are the last point of each contour and each later point on its own. A glyph whose first contour is empty panics.", "quantifier": "every glyph", "why_tests_cant": "all numbers of contours, points and components", "anchors": ["src/tables/glyf/glyph.rs: gvar_coords_and_ends"]}
{"id": "C62", "title": "Round trip of the GDEF table", "statement": "A GDEF table with maps within the limits of the coverage and class tables, no caret with a device table, no mark glyph sets and no item variation store is written, or refused with an error if a 16-bit offset overflows. Reading it gives the attachment points and carets exactly and every glyph its glyph class and mark attachment class; a glyph without a class stays so, except that one between two glyphs with a class may become a base glyph. A caret with a device table that did not come from a file makes the writer panic. Mark glyph sets, devices of carets, and an item variation store are written but not read back: the reader looks for them relative to another place.", "quantifier": "every GDEF table", "why_tests_cant": "the repository's tests read and write a few fixed tables without mark glyph sets, devices or gaps", "anchors": ["src/tables/GDEF.rs: GDEF::from_bytes, GDEF::to_bytes, CaretValue, GlyphClass::from"]}
{"id": "C63", "title": "Axes and named instances of an instance", "statement": "The instancer removes the fvar table exactly if every axis is pinned. Otherwise the new table has the free axes in their order, with the new range where one was given, and exactly the named instances whose coordinates equal the pinned values and lie within the new ranges, in their order, each without its coordinates on the pinned axes.", "quantifier": "every fvar table with distinct axis tags and instances with a 16.16 coordinate for each axis, every set of limits on its axes with 16.16 pins", "why_tests_cant": "any number of axes and instances; the code compares coordinates of f32 numbers up to an epsilon and positions by zipping filtered lists", "anchors": ["src/otvar/instancer.rs: instantiate_fvar"]}
{"id": "C64", "title": "Axis maps of an instance", "statement": "The instancer removes the avar table if every axis is pinned. If none is limited to a range and every free axis has a valid map, the new table has the maps of the free axes unchanged and in order; it never returns if a free axis has no map or one that is not valid. A font with an avar table cannot be limited to a range of any axis: whatever the maps, the instancer does not return.", "quantifier": "every list of axes with distinct tags, every list of maps and every set of limits", "why_tests_cant": "that narrowing can never succeed follows only from the sign of every possible normalised limit", "anchors": ["src/otvar/instancer.rs: instantiate_avar", "src/tables/avar.rs: SegmentMap::new, is_valid"]}
{"id": "C65", "title": "Single positioning keeps every glyph's adjustment", "statement": "A single positioning rule for at least one glyph, whose glyphs can be written as a coverage table (C07), keeps each glyph's adjustment when converted, written and read, whichever format is chosen, if it has no device tables or moves all glyphs in the same way (then the devices are kept too, given that the x and y placement devices come together). A rule for no glyph panics; a rule with different adjustments and a device table cannot be written.", "quantifier": "every finite map from glyphs to value records", "why_tests_cant": "the choice of format and the common value format depend on all records together", "anchors": ["src/layout/gpos1.rs", "crates/otspec/src/layout/gpos1.rs"]}
{"id": "C66", "title": "Cursive attachment keeps every anchor", "statement": "A cursive attachment rule whose glyphs can be written as a coverage table (C07) keeps each glyph's entry and exit anchors, present or absent, in any anchor format, when converted, written and read.", "quantifier": "every finite map from glyphs to optional anchors", "why_tests_cant": "arbitrary combinations of absent anchors and formats", "anchors": ["src/layout/gpos3.rs", "crates/otspec/src/layout/gpos3.rs", "crates/otspec/src/layout/anchor.rs"]}
{"id": "C67", "title": "Mark-to-ligature attachment survives for one ligature only", "statement": "A mark-to-ligature rule for at most one ligature, whose marks can be written as a coverage table (C07), keeps each mark, and for each component the anchors of classes up to the largest class of any mark. With two ligatures the attachment tables are read from the wrong place: the rule may be unreadable or come back with components it never had.", "quantifier": "every rule with any number of components, classes and anchors", "why_tests_cant": "the existing tests read but never write several ligatures", "anchors": ["src/layout/gpos5.rs", "crates/otspec/src/layout/gpos5.rs"]}
{"id": "C68", "title": "Class-based kerning is read as the adjustments of the classes", "statement": "Reading a class-based pair subtable gives, for any two glyphs of the font, the records of their classes (explicit zeros dropped) if they have an effect and no entry otherwise. The coverage of the subtable plays no part, so a subtable meant for one glyph with values for class 0 is read as moving every glyph without a class.", "quantifier": "every pair of class definitions, every matrix of records and every glyph count", "why_tests_cant": "all pairs of glyphs; class 0 includes every glyph that is not mentioned", "anchors": ["src/layout/gpos2.rs: from_lowlevel"]}
{"id": "C69", "title": "Whole GPOS tables survive unless they attach marks to marks", "statement": "Whenever a GPOS table whose rules fit the format (C14-C16, C65-C67), whose script and feature lists fit and which has no mark-to-mark lookup is written, reading the bytes gives the same lookups in the same order with the same flags and mark filtering sets, the same adjustments and reachable anchors, the same scripts and features; contextual subtables are split into one per rule and feature parameters are lost. It is written exactly if every subtable ends up near enough to its owner for the offset field, in particular if it takes at most 65535 bytes, for which it is enough that its contents, counted generously (for instance 18 bytes for each singly adjusted glyph, 40 for each pair, 22 for each cursive glyph, 14 for each mark, and ten for each base and class of marks, besides device tables), come to no more; then it also takes no more bytes than counted. With a mark-to-mark lookup reading the written table always panics. A table with an empty single positioning subtable (such as add_subtable_break makes), with different adjustments and a device table, with a mark of class 65535 or with a plain contextual rule with an input position is never written.", "quantifier": "every GPOS table, with any number and mixture of lookups, and every glyph count", "why_tests_cant": "tests write one small lookup at a time and never read mark-to-mark lookups back through the table", "anchors": ["src/tables/GPOS.rs: to_lowlevel, from_lowlevel, subtables_from_lowlevel", "crates/otspec/src/tables/GPOS.rs"]}
{"id": "C70", "title": "GPOS extension lookups are transparent for types 1 to 6 only", "statement": "Replacing the subtables of any selection of (non-empty) lookups of types 1 to 6 by extension subtables does not change what is read from the file. Extension subtables of contextual and chained positioning (types 7 and 8) are rejected although the format allows them; an extension lookup without subtables panics.", "quantifier": "every fitting table and every selection of its lookups", "why_tests_cant": "the selection of wrapped lookups and the resulting 32-bit offsets are arbitrary", "anchors": ["src/tables/GPOS.rs: extension_from_lowlevel", "crates/otspec/src/tables/GPOS.rs: ExtensionPosFormat1"]}
{"id": "C71", "title": "The STAT table survives, one format per value", "statement": "A STAT table whose numbers fit 16.16 and whose offsets and values take at most 65535 bytes is written in 20 + 8 per axis + 2 per value + 12, 20, 16 or 8 + 6 per location bytes, and reads back with the same axes and values in order. A value keeps only what its format has: with locations everything else is lost, with a linked value the range is lost, a missing nominal value becomes 0; a missing fallback name becomes 17. Values which fit one format are unchanged, and every value ever read does, so reading, writing and reading again gives the same table. A value with neither axis index nor locations panics on writing, as does a table that is too long; but one with a single value longer than 65535 bytes is written and cannot be read.", "quantifier": "every STAT table with any number of axes and values of any formats, at any place of a file", "why_tests_cant": "tests have one table with a value each; the choice of format and 16-bit offset arithmetic depend on every field and on the total length", "anchors": ["src/tables/STAT.rs: Serialize for STAT, Serialize for AxisValue, Deserialize for STAT, Deserialize for AxisValue"]}
{"id": "C72", "title": "Style attributes of an instance", "statement": "The instancer keeps exactly the STAT axis values whose nominal value, and each of whose locations, equals the pinned value of its axis or lies within its new range (or is on an axis without a limit), unchanged and in order, and all design axes; dropped axes count as pinned to their default. Linked values and ranges are not looked at. A nominal value without an axis or on an axis which the table does not have is a panic.", "quantifier": "every STAT table with 16.16 coordinates, every set of limits with 16.16 pins", "why_tests_cant": "any number of axes and values; the code compares f32 numbers up to an epsilon", "anchors": ["src/otvar/instancer.rs: instantiate_STAT, instantiate_variable_font"]}
{"id": "C73", "title": "OS/2 tables round trip", "statement": "Every OS/2 table whose vendor is a tag of printable bytes is written with the length of its version (78, 86, 96 or 100 bytes) and read back with all its fields: a missing field that the version has becomes 0, and a field that it does not have is lost, so nothing changes exactly if the table has the fields of its version. Every table that was read is such a table. A table whose vendor has a byte that is not printable (as the zeros some fonts have there) is written but can never be read back.", "quantifier": "every table, version, position in the file; every file", "why_tests_cant": "39 fields with 65536 versions each having its own set of them", "anchors": ["src/tables/os2.rs: os2::to_bytes, os2::from_bytes"]}
{"id": "C74", "title": "Unicode ranges of a font", "statement": "calc_unicode_ranges sets exactly the bits of the font's code points, whatever the order of the hash set, and changes no other field; a code point has the bit of the one block that the search finds, or else bit 0. So a bit other than 0 is only set if the font has a code point in a block with that bit, more code points only add bits, and a code point of two blocks never sets both bits. The table is searched as if it were sorted, but it is not: with the search of either current or former versions of the Rust library, no code point of 121 of the 169 blocks (Cyrillic, Hebrew, Arabic, Hangul syllables, ...) is found, and a font with only those is marked as Basic Latin; 41 blocks always get their bit.", "quantifier": "every mapping, every former table, every order of the set, every search that only promises that what it finds matches; all code points of the blocks for the two searches of the library", "why_tests_cant": "all sets of code points; results of the search on an unsorted table are unspecified", "anchors": ["src/tables/os2.rs: OS2_UNICODE_RANGES, glyph_unicode_range, calc_unicode_ranges"]}
{"id": "C75", "title": "Lists of bits as numbers", "statement": "filtered_bitset_to_num turns distinct bits, in any order, into the number whose bit k is set exactly if low + k is listed and at most high; it never overflows when at most 32 bits are asked for. A bit listed twice is counted twice. int_list_to_num sets exactly the listed bits, repeated or not, and panics exactly if one is 32 or more.", "quantifier": "every list, every range of at most 32 bits", "why_tests_cant": "sums of powers only equal sets of bits if nothing carries", "anchors": ["crates/otspec/src/utils.rs: filtered_bitset_to_num, int_list_to_num"]}
{"id": "C76", "title": "Code pages of a font", "statement": "calc_code_page_ranges sets a bit exactly if the font has the characters listed for that code page (and, for some, all of ASCII from space to the closing brace; the tilde is not asked for), or it is bit 0 and no code page is supported. Some bit is always set, and more characters only add bits, except that bit 0 may go away: a font marked as Latin 1 for want of anything else loses it with its first Cyrillic letter. No other field changes.", "quantifier": "every mapping, every former table, every order of the set", "why_tests_cant": "all sets of code points and 32 overlapping conditions", "anchors": ["src/tables/os2.rs: calc_code_page_ranges"]}
{"id": "C77", "title": "Unicode variation sequences survive saving", "statement": "A format 14 character map subtable with variation sequences (character, selector) to glyph is saved exactly if all characters and selectors are below 2^24, and saving panics otherwise. The bytes list exactly the given sequences in the way OpenType prescribes, with selectors and characters in increasing order, no default sequences, and the right length field. Read again, from anywhere in a file, they give the same sequences, under platform 0, encoding 5 and language 0 whatever these were, provided every list starts at most 65535 bytes into the subtable; otherwise reading panics. A subtable without sequences comes back with an empty map of sequences.", "quantifier": "every map of sequences (fewer than 2^32), platform, encoding, language, surrounding bytes", "why_tests_cant": "all maps of pairs and all positions; large tables fail only on reading", "anchors": ["src/tables/cmap.rs: cmap14::from_uvs_mapping, to_uvs_mapping", "src/tables/cmap.rs: CmapSubtable::to_bytes, cmap::from_bytes", "crates/otspec/src/types.rs: uint24"]}
{"id": "C78", "title": "A whole character map table", "statement": "Saving a cmap table of up to 65535 subtables (under 4 GB) writes for each subtable, in order, its platform, encoding and the place of the bytes of the first subtable whose mapping has the same hash. If the subtables survive on their own (C33, C34, C77), reading gives for each subtable the content of that first subtable under its own platform and encoding. So the table is read back unchanged if subtables with equal hashes also agree in format, language and sequences and nothing is set that the format cannot express; otherwise format, language or sequences are replaced: the same map in format 4 and format 12 comes back as format 4 twice, and of several format 14 subtables only the first one's sequences remain. A table is saved if all its subtables can be; it panics if one that would be written cannot.", "quantifier": "every list of subtables, every hash function", "why_tests_cant": "depends on which subtables share a hash; all combinations of formats", "anchors": ["src/tables/cmap.rs: Serialize for cmap", "src/tables/cmap.rs: Deserialize for cmap"]}
{"id": "C79", "title": "Statistics of a maxp table", "statement": "For a table of at most 65535 glyphs, each with at most 65535 points, contours and components, asking for the maxp table gives the version 1.0 table with the number of glyphs; the largest number of points, contours and components of a glyph; and, over all composite glyphs, the largest total number of points and of contours of the outlines it is built from and the largest number of levels; instruction limits are fixed (one zone, otherwise 0). This happens exactly if such a table exists, that is if no glyph contains itself and no total exceeds 65535; otherwise the call panics. Components that are not in the table count for nothing. Flattening changes only the number of components and the levels, which become 1. Larger numbers per glyph and larger tables are cut to 16 bits silently.", "quantifier": "every glyph table", "why_tests_cant": "arbitrary component graphs, including shared and cyclic ones, and totals at the limit of 16 bits", "anchors": ["src/tables/glyf.rs: as_maxp10", "src/tables/glyf/glyph.rs: composite_maxp_values", "src/tables/maxp.rs: new10"]}
{"id": "C80", "title": "Decomposing composite glyphs", "statement": "Decomposing a glyph gives its own contours followed by, for each component that is in the table in order, the contours of that glyph with every point moved by the component's transformation (fractions dropped, clamped to 16 bits, on-curve marks kept); no components and instructions are left, the overlap mark is kept and the box is zero. Contours of nested components are lost; but after flattening the table, every glyph nested at most 64 deep decomposes into its own contours and those of all outlines it is built from, each moved by the composition of all transformations on the way with fractions dropped only once.", "quantifier": "every glyph table and glyph", "why_tests_cant": "arbitrary nesting and transformations", "anchors": ["src/tables/glyf/glyph.rs: decompose", "src/tables/glyf/point.rs: transform", "src/tables/glyf.rs: flatten_components"]}
{"id": "C81", "title": "Written tables follow the OpenType layout", "statement": "The bytes written for head, hhea, maxp, OS/2, hmtx, gasp, cvt, fpgm/prep, avar, fvar, name, post, STAT and cmap formats 4 and 12 are the fields of the OpenType specification, in its order and with its widths, big-endian, counts equal to the number of records, every offset leading to the part it names, and (STAT apart, whose parts are reached through offsets) nothing else. Guards: fixed point fields hold values of their grid; lists fit their 16-bit (cmap 12: 32-bit) counts; maxp and post versions are ones the format knows; fvar and STAT are written without error.", "quantifier": "every table value within the guards", "why_tests_cant": "a round trip cannot see a mistake that the writer and the reader share, and a sample file fixes only the fields it happens to set", "anchors": ["crates/otspec/src/tables/head.rs", "src/tables/hhea.rs", "src/tables/maxp.rs", "src/tables/os2.rs", "src/tables/name.rs", "src/tables/post.rs", "src/tables/STAT.rs", "src/tables/fvar.rs", "crates/otspec/src/tables/avar.rs", "src/tables/cmap.rs", "src/tables/hmtx.rs", "src/tables/gasp.rs"]}
{"id": "C82", "title": "Written GSUB, GPOS and GDEF tables follow the OpenType layout", "statement": "The bytes written for a GSUB or GPOS table (script, language and feature lists, lookups, every kind of subtable, coverage and class tables, value records, anchors, device tables), for a GDEF table and for an item variation store show, from the first byte and through every offset, the fields of the OpenType specification with the contents of the value that was saved: covered glyphs in ascending order, each ligature of the map once and longer before shorter under its first glyph, each pair with its adjustments, one anchor offset for each mark class, class count one more than the greatest class. Counts are shown modulo 2^16. Feature parameters are not written (C17). Guards: the write succeeds; a lookup has a mark filtering set exactly if its flag says so; device tables only in single adjustments that are the same for all glyphs, for x and y placement together; pair adjustments with non-zero values in the same fields; maps in key order; item variation rows as long as the list of regions, with regions on the F2DOT14 grid. This holds also for mark-to-mark and mark-to-ligature lookups, which the reader cannot read back.", "quantifier": "every table value within the guards", "why_tests_cant": "a round trip cannot see a mistake that the writer and the reader share, and the tables are trees of any size and shape", "anchors": ["src/tables/GSUB.rs", "src/tables/GPOS.rs", "src/tables/GDEF.rs", "src/layout/common.rs", "src/layout/contextual.rs", "src/layout/gsub4.rs", "src/layout/gpos2.rs", "src/layout/gpos4.rs", "crates/otspec/src/layout/coverage.rs", "crates/otspec/src/layout/classdef.rs", "crates/otspec/src/layout/device.rs", "src/otvar/itemvariationstore.rs"]}
{"id": "C83", "title": "The tools for checksums, signatures and unhinted fonts change nothing else", "statement": "ttf-fix-checksum, ttf-add-minimal-dsig and ttf-fix-non-hinted, from the bytes of the input file to the bytes of the output file: each writes a file exactly if the input is a font whose head and loca (if present) can be read, with a readable maxp, and fewer than 4096 tables in the result. The result (below 2^32 bytes) is a font with the same version and the same tables, byte for byte, except: the checksum adjustment in head is such that the file adds up to 0xB1B0AFBA; the second tool adds an 8-byte DSIG table of version 1 without signatures if there was no DSIG; the third replaces prep by the program that turns instructions off, and adds a gasp table with smooth rendering at all sizes if there was none. Running a tool on its own output gives the same file. No tool ends with an error that goes unnoticed: each writes a file or panics (also those of C84 to C87, but for C87's two cases without a file).", "quantifier": "every input file, whatever its other tables contain", "why_tests_cant": "tables the library would parse and rewrite must come out untouched, for any contents and any set of tables", "anchors": ["crates/fonttools-cli/src/bin/ttf-fix-checksum.rs", "crates/fonttools-cli/src/bin/ttf-add-minimal-dsig.rs", "crates/fonttools-cli/src/bin/ttf-fix-non-hinted.rs", "crates/fonttools-cli/src/lib.rs: open_font, save_font", "src/font.rs", "src/table_store.rs"]}
{"id": "C84", "title": "ttf-rename-glyphs gives production names and changes nothing else", "statement": "ttf-rename-glyphs, from the bytes of the input file to those of the output: it writes a file exactly if the input can be opened, maxp, cmap (if present) and post (if present) can be read, post if present has names and at least as many as maxp counts glyphs, and there are fewer than 4096 tables. In the result, each of the first num_glyphs names is `space` or `uni`/`u` followed by the upper case hexadecimal digits (at least four, no more than needed) of the smallest character that a Unicode subtable maps to the glyph; glyphs without a character keep their names; all other tables are as they were, with the checksum adjusted. Reading post back gives these names if the italic angle is storable and at most 65278 names are outside the standard list. The option -d (`drop all names`) runs on fonts whose maxp, cmap and post can be read and changes nothing.", "quantifier": "every input file (output below 4 GiB)", "why_tests_cant": "the names depend on arbitrary character maps, in which several characters and several subtables share a glyph", "anchors": ["crates/fonttools-cli/src/bin/ttf-rename-glyphs.rs", "src/tables/post.rs", "src/tables/cmap.rs: reversed", "src/font.rs: num_glyphs"]}
{"id": "C85", "title": "ttf-optimize-gvar writes gvar anew without changing the variations", "statement": "ttf-optimize-gvar, from the bytes of the input file to those of the output: it writes a file exactly if the input can be opened, maxp can be read, there are fewer than 4096 tables and, if the font has a gvar table, this table and the glyphs can be read and gvar can be written with the outlines. In the result gvar, if there was one, is what is written for the variations read; all other tables are as they were, with the checksum adjusted. The new gvar table is never longer than one written for the same variations without outlines. Opening the result gives the same glyphs and, under the conditions of C53 (coordinates storable, few enough axes, glyphs, peaks and points), the same variations, without those that move nothing.", "quantifier": "every input file and every order in which the writer may list equally frequent peaks (output below 4 GiB)", "why_tests_cant": "the choice of omitted deltas depends on arbitrary outlines and deltas, and the order of the shared peaks on the hash map", "anchors": ["crates/fonttools-cli/src/bin/ttf-optimize-gvar.rs", "src/tables/gvar.rs", "src/otvar/iup.rs"]}
{"id": "C86", "title": "ttf-flatten-components writes a font whose glyphs look the same and are nested only once", "statement": "ttf-flatten-components, from the bytes of the input file to those of the output: it writes a file exactly if the input can be opened, maxp and the glyphs (and hmtx, if there is one) can be read, no component refers to a missing glyph, there are fewer than 4096 tables and at most 65535 glyphs, and every flattened glyph can be written. If components are nested at most 64 deep, no contour has more than 32767 points, and the flattened components can be stored (whole 16 bit offsets, 2.14 scales), the new file has as many glyphs, each with the same box, outline and instructions; its components are those that remain when nested ones are replaced by what they consist of, all refer to glyphs without components, and decomposing gives the contours of every outline the glyph was built from. Tables other than glyf, loca, head and hhea are unchanged; head changes only in its offset format, its checksum adjustment and a revision beyond 128. Without the condition on storability glyphs may move: an offset of one half becomes 1 horizontally and 0 vertically. hhea's number of metrics becomes the smallest possible while hmtx stays as it is, so that a table which was not stored in the shortest way is read with too many and wrong metrics.", "quantifier": "every input file (output below 4 GiB)", "why_tests_cant": "fonts with arbitrary trees of components, transformations, tables and metrics", "anchors": ["crates/fonttools-cli/src/bin/ttf-flatten-components.rs", "src/tables/glyf.rs", "src/table_store.rs", "src/font.rs"]}
{"id": "C87", "title": "ttf-instantiate writes the font at the asked location", "statement": "ttf-instantiate, from its arguments and the bytes of the input file to those of the output. An argument is name=drop, name=number or name=number:number with a name of letters, digits and underscores that is a tag; any other makes it panic. With the same axis named twice, or when the font has no fvar table, no file is written. If every axis is given one location and the outlines vary, gvar is about the axes of fvar and the glyphs of glyf, and no contour has more than 32767 points, the new font has no fvar, avar and gvar table and as many glyphs; each keeps its components, instructions and the number, order and kind of its points, and its points are where the deltas of every region, scaled by the influence at the normalised location and inferred for points without deltas, put them, up to the error of f32 arithmetic and of storing whole 16 bit numbers (as in C46). STAT keeps exactly the axis values inside the limits. All other tables but those that hold glyphs are unchanged, also HVAR, MVAR, cvar and hmtx. What users might expect does not hold: a font whose outlines vary is not written unless every axis gets one location (partial instances always panic), nor unless for each varying glyph some region has influence (so usually not at the default location), components do not move, and asking for the default location can move points.", "quantifier": "every input file, every list of arguments, however decimal numbers are read (output below 4 GiB)", "why_tests_cant": "arbitrary fonts, axes, regions, maps and locations; what holds for all unchanged tables", "anchors": ["crates/fonttools-cli/src/bin/ttf-instantiate.rs", "crates/fonttools-cli/src/lib.rs", "src/otvar/instancer.rs", "src/table_store.rs", "src/font.rs"]}
{"id": "C88", "title": "GSUB tables of any font are read as what they prescribe", "statement": "Every GSUB table of version 1.0 that follows the OpenType specification, whichever program wrote it: in whatever order and wherever its parts are placed, shared or overlapping, with coverage and class tables in either format, lookups stored directly or as extensions. Reading it succeeds. The scripts, languages, features and lookup flags are the ones in the file. Each lookup keeps its type and the number and order of its subtables, and each subtable means the same as in the file: the same glyphs have the same substitutes, sequences and alternates; the same ligature is formed from every text; contextual rules match the same texts and run the same lookups at the same places. Guards: glyph 65535 is not covered; a coverage table lists a glyph once; required offsets are not null; a delta added to a signed glyph number does not leave 16 bits; no ligature comes before a longer one that it begins; class 0 is not explicit; class based contexts are compared on texts that begin with a covered glyph; extension lookups have a subtable and are not of type 8. Outside the guards the code panics, fails or changes meaning, as shown one by one.", "quantifier": "every byte string that follows the specification, every text", "why_tests_cant": "tests read files of a few compilers; arbitrary arrangements of offsets, formats, glyphs and texts", "anchors": ["src/tables/GSUB.rs", "src/layout/common.rs", "src/layout/contextual.rs", "src/layout/gsub1.rs", "src/layout/gsub4.rs", "crates/otspec/src/layout/common.rs", "crates/otspec/src/layout/coverage.rs", "crates/otspec/src/layout/classdef.rs"]}
{"id": "C89", "title": "GPOS tables of any font are read as what they prescribe", "statement": "Every GPOS table of version 1.0 that follows the OpenType specification, whichever program wrote it: in whatever order and wherever its parts are placed, shared or overlapping, with coverage, class and device tables in every format, value records with any fields, lookups stored directly or as extensions. Reading it succeeds. The scripts, languages, features and lookup flags are the ones in the file. Each lookup keeps its type and the number and order of its subtables, and each subtable means the same as in the file: the same glyphs have the same adjustments and device tables; the same pairs are adjusted alike; the same entry and exit anchors; marks of the same class go to the same anchors of bases and ligature components; contextual rules match the same texts and run the same lookups at the same places. Guards: glyph 65535 is not covered; coverage tables and pair sets list a glyph once; required offsets and the anchors of marks are not null; pairs of glyphs have no devices; a subtable attaches marks to at most one ligature; class 0 is not explicit; pairs of classes are compared for a covered first glyph and up to cells of zeros; anchors have no devices; extension lookups have a subtable and are not contextual; no lookup attaches marks to marks. Outside the guards the code panics, fails or changes meaning, as shown one by one.", "quantifier": "every byte string that follows the specification, every glyph, pair of glyphs and text", "why_tests_cant": "tests read files of a few compilers; arbitrary arrangements of offsets, formats, glyphs and texts", "anchors": ["src/tables/GPOS.rs", "src/layout/common.rs", "src/layout/gpos1.rs", "src/layout/gpos2.rs", "src/layout/gpos3.rs", "src/layout/gpos4.rs", "src/layout/gpos5.rs", "crates/otspec/src/layout/valuerecord.rs", "crates/otspec/src/layout/device.rs", "crates/otspec/src/layout/anchor.rs", "crates/otspec/src/layout/gpos2.rs"]}
{"id": "C90", "title": "GDEF tables of any font are read as what they say", "statement": "Every GDEF table of version 1.0, 1.2 or 1.3 that follows the OpenType specification, whichever program wrote it and however it arranged the parts: reading it succeeds, and gives for every glyph the glyph class, the attachment points, the ligature carets and the mark attachment class that the table says. Guards: glyph 65535 has no properties; class tables list glyphs once, with classes 1 to 4 as glyph classes; coverage tables list a glyph once; lists of attachment points are not null; carets have no devices; there are no mark glyph sets and no item variation store. Outside the guards: mark glyph sets, the parts of a variation store and the devices of carets are taken from a wrong place, explicit class 0 becomes base, a null list of points panics.", "quantifier": "every byte string that follows the specification, every glyph", "why_tests_cant": "tests read files of a few compilers; arbitrary arrangements of offsets, formats and glyphs", "anchors": ["src/tables/GDEF.rs", "crates/otspec/src/layout/classdef.rs", "crates/otspec/src/layout/coverage.rs"]}
{"id": "C91", "title": "The small tables of any font are read as what they say", "statement": "Every head, hhea, maxp, OS/2, gasp, cvt, fpgm, prep, hmtx, avar, fvar, name, post and STAT table that follows the OpenType specification, whichever program wrote it and however it arranged offsets, strings and optional fields: reading it succeeds and gives what the table says (strings may be shared in the storage area; glyph names may be stored in any order, also unused ones; fvar axes, STAT axes and axis values may be anywhere). Guards: dates are in chrono's years; fixed numbers are exact as f32 (others are rounded to the nearest); the string storage of name follows the records immediately and every encoding is one the code knows; indices of glyph names exist; STAT axis values of format 4 list an axis once; maxp is of version 0.5 or 1.0; fvar has less than 16383 axes; hmtx has at least one full metric. Outside the guards: either date, missing glyph names, no full metric and too many axes panic; another version of maxp is rejected. Every name table with whole records is read with each string taken at its offset from the end of the records, wherever the table says the storage area is; the first record for which that is impossible decides: an error if the string would be outside the table, a panic if the code does not know its encoding.", "quantifier": "every byte string that follows the specification", "why_tests_cant": "tests read files of a few compilers; arbitrary bytes, arrangements and numbers", "anchors": ["crates/otspec/src/tables/head.rs", "src/tables/hhea.rs", "src/tables/maxp.rs", "src/tables/os2.rs", "src/tables/gasp.rs", "src/tables/cvt.rs", "src/tables/fpgm.rs", "src/tables/prep.rs", "src/tables/hmtx.rs", "crates/otspec/src/tables/avar.rs", "src/tables/fvar.rs", "src/tables/name.rs", "src/tables/post.rs", "src/tables/STAT.rs"]}
{"id": "C92", "title": "Character maps of any font are read as what they say", "statement": "Every cmap table whose subtables are of formats 4, 12 and 14 and follow the OpenType specification, whichever program wrote it (segments sharing glyph arrays, any deltas, any search fields, records sharing subtables, tables in any order): reading it succeeds and gives one subtable per record, with its platform, encoding and language, in which every character has exactly the glyph that OpenType's lookup finds, and every variation sequence with a glyph of its own has exactly that glyph. Guards: the sum of an array glyph and a delta fits a signed 16-bit number; glyphs of format 12 fit 16 bits; tables of format 14 start within 65535 bytes of it. Outside: such a sum always panics; a wider glyph of format 12 loses its upper bits, and a group whose glyphs cross a multiple of 65536 panics; U+FFFF is never mapped; a subtable of format 0 is read as empty; any other format makes the whole table an error; sequences displayed as the character alone are dropped.", "quantifier": "every byte string that follows the specification, every character, every sequence", "why_tests_cant": "tests read files of a few compilers; arbitrary arrangements of segments, arrays and deltas", "anchors": ["src/tables/cmap.rs:261-328", "src/tables/cmap.rs:397-409", "src/tables/cmap.rs:491-505", "src/tables/cmap.rs:600-666"]}
{"id": "C93", "title": "Outlines of any font are read as what they say", "statement": "Every pair of `glyf` and `loca` tables that follow the OpenType specification, whichever program wrote them (short or long locations, glyphs in any order, sharing data, padded or not; flags repeated or not, steps in either width; composites with any kind of scale, offsets or points): reading them succeeds and gives exactly the glyphs described, those of no length empty. Guards: every coordinate fits 16 bits, fewer than 32768 instruction bytes, at least one contour or component in every glyph that has data. Outside: a coordinate too large panics; more instructions are taken for none, and what follows is read from the first of them on; a glyph of no contours is an error; so is a location outside the data.", "quantifier": "every pair of byte strings that follow the specification", "why_tests_cant": "tests read files of a few compilers; arbitrary arrangements of glyphs, flags and widths", "anchors": ["src/tables/glyf.rs:34-68", "src/tables/loca.rs:20-49", "src/tables/glyf/glyph.rs:66-211", "src/tables/glyf/component.rs:118-189"]}
{"id": "C94", "title": "Glyph variations of any font are read as what they say", "statement": "Every gvar table that follows the OpenType specification, whichever program wrote it (short or long offsets, tables in any order, shared or embedded peaks, with or without their own start and end, shared or private point numbers, any division into runs, deltas omitted for inference): reading it for the points of the font's glyphs succeeds, and every glyph has exactly the variations stored for it, in order: the peak that is embedded or shared, the start and end given, and for every point the delta given or the one OpenType's rules infer from its neighbours. A region without start and end has the influence OpenType gives it if its peak is 0 or at an end of each axis. Guards: fewer than 65535 glyphs and shared tuples; short offsets below 65536; room for one tuple after the shared tuples; the data of variations follow each other without gaps; at most 127 point numbers in a list; differences of neighbouring points fit 16 bits. Outside: a peak inside an axis has influence beyond it, where OpenType gives none; data after a gap are read as other deltas; a longer list of point numbers is never read as itself; a table that ends after its shared tuples is an error; 65535 glyphs, 65535 shared tuples, or a short offset that leads 65536 bytes or more into the data make the reader panic.", "quantifier": "every byte string that follows the specification, every set of outlines", "why_tests_cant": "tests read files of one compiler; arbitrary layouts, runs and regions", "anchors": ["src/tables/gvar.rs:166-257", "src/otvar/tuplevariationstore.rs:69-147", "src/otvar/tuplevariationheader.rs:52-90", "src/otvar/iup.rs:6-121"]}
{"id": "C95", "title": "MATH tables of any font are read as what they say", "statement": "Every MATH table that follows the OpenType specification, whichever program wrote it and however it arranged the parts, and that has no device tables, italics corrections and top accents: reading it gives the 56 constants, the smallest overlap, and for every glyph whether it is an extended shape, its four math kerns, and its vertical and horizontal variants and assembly, that the table says; without constants reading is an error. Guards: glyph 65535 is not covered; a coverage table lists a glyph once. Outside: offsets in MathConstants, MathItalicsCorrectionInfo, MathTopAccentAttachment, MathKern and GlyphAssembly are followed from the beginning of the structure around them instead of their own, and a table laid out that way is read as what it says; so italics corrections of a valid table are lost or given to other glyphs, and a device table can crash the reader.", "quantifier": "every byte string that follows the specification, every glyph", "why_tests_cant": "the one test reads one table, without corrections or devices; arbitrary arrangements of offsets and records", "anchors": ["src/tables/MATH.rs:12-341", "crates/otspec_macros/src/de.rs:28-66"]}
{"id": "C96", "title": "A font file of any program is what it says", "statement": "Every file whose directory can be read and whose tables lie inside it: its tables are exactly the byte ranges that its directory names (of several tables with one tag, the one that begins last). It loads if it has a `head` that can be read, or neither `head` nor `loca`. After any sequence of lookups, changes to looked-up copies and writes (anything but inserting and removing tables), looking up any of the 22 known tables gives what the bytes of the file say, in the sense of C88 to C95 (reading `loca` with the format of `head`, `hmtx` with the count of `hhea`, GSUB and GPOS with the count of `maxp`, `gvar` with the points of `glyf`); an unknown table is its bytes, a table that is not in the file is absent, and every table is written as its bytes. Outside: `loca` without `head` is an error; a directory that cannot be read is an error; a table outside the file a panic.", "quantifier": "every byte string, every table, every history of read-only operations", "why_tests_cant": "tests read single tables of a few files; all files, all orders of lookups with their hidden loading of other tables", "anchors": ["src/font.rs:233-261", "src/table_store.rs:190-202", "src/table_store.rs:243-249", "src/table_store.rs:310-394"]}
{"id": "C97", "title": "Reading all tables at once changes nothing but speed; the glyph count is of the first call", "statement": "For a font loaded from any file whose tables were not replaced: fully_deserialize succeeds exactly if `head`, `maxp` and `glyf` are absent or can be looked up and looking up no table panics, and otherwise panics (other tables that cannot be read are skipped). Afterwards every table that can be looked up has been read, with the value a lookup gives; every lookup has the outcome it had before, and every table is written as the same bytes. num_glyphs gives the number in `maxp` at the time of its first call, and panics if `maxp` is absent or cannot be read; later calls give the same number whatever happens to the tables, so after `maxp` is replaced it is stale.", "quantifier": "every file, every history of read-only operations, every table", "why_tests_cant": "no test calls fully_deserialize on a font with broken tables, or num_glyphs twice", "anchors": ["src/font.rs:106-108", "src/font.rs:125-138", "src/table_store.rs:216-233"]}
{"id": "C98", "title": "A contour as a path has the same outline; a path as a contour runs backwards", "statement": "glyf_contour_to_kurbo_contour on a contour whose first point is on the curve gives a path whose segments are the TrueType outline of the contour: each line and each quadratic curve once, in the order of the points, the points implied between off-curve points being halfway (in whole units, halves towards zero, so at most half a unit off; exact if the middles are whole). It panics exactly for an empty contour or if the coordinates of neighbouring off-curve points have a sum that does not fit 16 bits. If the first point is off the curve, the path is wrong: that point is taken as on the curve. kurbo_contour_to_glyf_contour on a path of one subpath gives a contour whose outline is the path backwards, coordinates cut towards zero to 16 bits and cubics replaced by the quadratics kurbo gives, and a line from the start to the end of the path (of no length if the path is closed). Further subpaths are joined to the first one and their start is lost; an empty path panics. There and back, a contour has its points and middles in reverse order, and its first point twice.", "quantifier": "every contour, every path of one subpath, every replacement of cubics by quadratics with the same end", "why_tests_cant": "there is no test of these functions; all contours and paths are infinitely many", "anchors": ["src/tables/glyf/contourutils.rs:45-95", "src/tables/glyf/contourutils.rs:98-132", "crates/fonttools-cli/src/bin/fontcrunch.rs:639-641"]}
{"id": "C99", "title": "Removing overlaps hands Skia the outline and takes back what Skia returns", "statement": "remove_overlap on a glyph whose contours begin on the curve hands Skia one closed subpath for each contour, which is the TrueType outline of the contour (points implied between off-curve points being halfway, in whole units). Whatever closed subpaths of lines and quadratic curves Skia returns become the new contours, one for each subpath, in order, backwards, coordinates cut towards zero to 16 bits. If Skia returns nothing, the contours keep their outline and get the implied points as points. If Skia returns the path it was given, each contour keeps its outline but runs the other way. Composite glyphs and glyphs without contours stay as they are, and so do instructions. What Skia draws after the last closing is lost; of a cubic two points are taken instead of three, so that everything after it is wrong. A contour beginning off the curve loses a curve even if Skia changes nothing. An empty contour panics, and so do neighbouring off-curve points whose coordinates have a sum beyond 16 bits. On files: ttf-remove-overlap writes a font exactly if the input can be opened, maxp, the glyphs and any metrics can be read, there are fewer than 4096 tables, the above succeeds for every glyph, no component refers to a missing glyph, and the result fits the format; otherwise it panics. The new file has the new contours with tight boxes, the same instructions, the components with nested ones resolved, and all tables but glyf, loca, head and hhea as they were - gvar too, although its point numbers may be wrong by then.", "quantifier": "every glyph, every function in place of Skia's simplify (output below 4 GiB)", "why_tests_cant": "there is no test of the tool; all outlines and all answers of Skia are infinitely many", "anchors": ["crates/fonttools-cli/src/bin/ttf-remove-overlap.rs:7-51", "crates/fonttools-cli/src/bin/ttf-remove-overlap.rs:53-83", "src/tables/glyf/contourutils.rs:5-18"]}
{"id": "C100", "title": "What fontcrunch keeps of a contour", "statement": "For a contour beginning on the curve, fontcrunch cuts the outline at certain segments (breaks) and, for each two neighbouring breaks, redraws the stretch between them: a single line stays, anything else is what the optimiser makes of it; if the optimiser declines for a stretch, the path stays as it was. What lies between the last break and the first one is not redrawn: even if the optimiser leaves everything as it is, these segments are lost, and the last segment of the contour is always among them. So a circle of four curves comes back with three curves and a straight line. If the first and the last segment are breaks, the last one is a line, and no curve is straight, then an optimiser which leaves everything as it is keeps the outline, run the other way. A polygon whose sides meet in corners comes back with the same points in reverse order, whatever the optimiser does. An empty contour panics, and so do neighbouring off-curve points whose coordinates have a sum beyond 16 bits. On files: fontcrunch writes nothing for a font with gvar. Otherwise it writes a font exactly if the input can be opened, maxp, any post, the glyphs and any metrics can be read, there are fewer than 4096 tables, every glyph with contours has a name unless there are no names at all, every contour can be crunched and the result fits the format; a font without glyf is saved as it is. The new file has the crunched contours; instructions, components and boxes stay (boxes even if they do not fit any more), as do all tables but glyf, loca, head and hhea.", "quantifier": "every contour, every optimiser (output below 4 GiB)", "why_tests_cant": "the tests only look at the optimiser for two curves; contours and optimisers are infinitely many", "anchors": ["crates/fonttools-cli/src/bin/fontcrunch.rs:509-585", "crates/fonttools-cli/src/bin/fontcrunch.rs:586-630", "crates/fonttools-cli/src/bin/fontcrunch.rs:632-647", "crates/fonttools-cli/src/bin/fontcrunch.rs:649-704"]}
{"id": "C101", "title": "ttf-edit-math prints what the MATH table says, and what it leaves out", "statement": "ttf-edit-math dump prints an object exactly if the file can be opened and its post and MATH tables can be read; otherwise it panics. The object has the 56 constants under the names of the OpenType specification, the italics corrections, accent attachments and kerns by glyph name (a backslash and the glyph number where post has no name, as in every font with a post table other than version 2), the extended shapes as ascending names without repetition, and the minimum overlap or null. Keys ascend; of several glyphs with one name only the last is there. Of a kern record only the corners that exist are there, and of a kern only heights and kerns that are not empty. Variants and assemblies (always the number 1) and device tables are left out, so the table cannot be rebuilt from what is printed. load does nothing, whether or not there is a MATH table, and panics without a readable post table.", "quantifier": "every input file; every MATH table and list of names", "why_tests_cant": "there is no test of the tool; tables and names are infinitely many", "anchors": ["crates/fonttools-cli/src/bin/ttf-edit-math.rs:10-209", "crates/fonttools-cli/src/bin/ttf-edit-math.rs:211-268", "crates/fonttools-cli/src/bin/ttf-edit-math.rs:270-300"]}
{"id": "C102", "title": "fontcrunch's optimiser draws connected curves with storable points, not worse than a single line or curve", "statement": "Given a stretch of curves beginning at whole coordinates, at least a twentieth of a unit long, and unless measuring panics, the optimiser of fontcrunch returns curves from where the stretch begins to the tabulated end of the stretch, rounded to halves, each beginning where the one before ends. Curves begin and end at the table's values at tenths of a unit along the stretch, rounded to halves. Control points of curves are whole, and lie, before rounding, where the lines in the directions of the two ends meet. Two pieces meet at whole coordinates, or halfway between two whole control points; so, when the curves are stored as a contour with small enough coordinates and the implied points are removed, every point that is left is stored exactly, provided the end is whole. Shorter stretches and breaks beginning at halves are declined. Whatever the measure, as long as scores are compared irreflexively and transitively, neither a single line nor the single curve in the directions of the ends has a lesser score than what is returned.", "quantifier": "every stretch of quadratic curves, step length, way to measure, and scores", "why_tests_cant": "the one test optimises one stretch; the search over breaks depends on measured numbers in every comparison", "anchors": ["crates/fonttools-cli/src/bin/fontcrunch.rs:59-142", "crates/fonttools-cli/src/bin/fontcrunch.rs:188-364", "crates/fonttools-cli/src/bin/fontcrunch.rs:366-507", "crates/fonttools-cli/src/bin/fontcrunch.rs:586-647"]}
{"id": "C103", "title": "When two fonts are equal", "statement": "Two fonts are equal (`==`) exactly if they have the same version, remember the same number of glyphs (or both none), and have the same tags, with, under each tag, either tables that nobody has looked up yet with the same bytes, or tables that were looked up or put in with equal values. If values are compared by an equivalence, this is an equivalence. So a lookup through a shared reference changes what a font is equal to: after the first lookup of a table, the font is unequal to every font it was equal to before; likewise after the first question for its number of glyphs. Later lookups and lookups of absent tables change nothing. The same lookup in two equal fonts ends the same way, gives equal values and leaves them equal. Equal fonts need not be saved as the same bytes: bytes behind the fields of a table are not compared once it was looked up, but are written.", "quantifier": "every pair of states that histories of operations lead to, every tag, every comparison of values", "why_tests_cant": "whether equality sees which tables were loaded depends on the histories of both fonts", "anchors": ["src/table_store.rs:535-550", "src/table_store.rs:49-53", "src/font.rs:55-64"]}
{"id": "C104", "title": "What a designspace makes of a font", "statement": "`Designspace::add_to_font` on a font with a readable `name` table: if every axis has a tag of four printable characters and a map that `SegmentMap::new` accepts, and the names fit the numbers 255 to 65534, the font gets an `fvar` with the axes and instances of the document, an `avar` with one map per axis, and the names of axes, styles and PostScript fonts at the end of its `name` table, numbered from 255 on, so that every number in `fvar` is found there; no other table changes. If the first axis that fails has a tag of another length, an error is reported and the font is unchanged; anything else is a panic. A mapped axis is accepted exactly if the outputs do not decrease and exactly one point sends the default to the least output and exactly one sends the maximum to a greater greatest one; its points become positions on the axis and shares of the way between the extreme outputs, to within 2^-22. A location gives every axis the first dimension with its name, or else its default. The default master is the first source at the default place, fractions aside. Masters on axes without maps are placed at their positions, and sources at different places meet the conditions of C44. Not so: numbers may clash with names already there (and 255 is reserved); usual maps, with the default inside, panic; an axis left out of a location counts as at its user-space default even if there is a map; with a map the default master is not at the origin; of axes with one tag the last name counts.", "quantifier": "every designspace document, every font state, every location, every axis and map (values exact in f32)", "why_tests_cant": "the document is arbitrary: any number of axes, instances, maps and names, any existing name table, and the acceptance of maps depends on float rounding", "anchors": ["crates/designspace/src/lib.rs:64-135", "crates/designspace/src/lib.rs:138-222", "crates/designspace/src/lib.rs:255-350", "src/tables/name.rs:141-158"]}
{"id": "C105", "title": "The tag! macro and tags as text", "statement": "For every Rust string literal (with any escapes) in a source whose only white space is space, tab and line ends: tag! compiles exactly if the literal's text, without quotes at its two ends, is one to four printable ASCII characters without quotes and backslashes, and then gives the tag that Tag::from_raw gives for this text. With quotes at the ends it gives another tag than from_raw; after an escaped line end it skips every other Unicode white space character, which the compiler takes as text. A code of two digits is read up to 128 and aborts the macro above. from_raw accepts exactly one to four printable characters and appends spaces; two texts make the same tag exactly if one is the other with spaces appended. A tag equals exactly its text of four characters, so a tag made from fewer characters does not equal what it was made from, and is made again from its text. Tags are ordered as the 32 bit numbers they are stored as. A tag and the text it equals are hashed differently, so a hash map of tags cannot be asked for a text.", "quantifier": "every string literal, every text, every pair of tags", "why_tests_cant": "a macro's tests only see the literals somebody wrote; the literals with escapes, quotes and continued lines are unbounded", "anchors": ["crates/otspec_macros/src/tag.rs", "crates/otspec/src/tag.rs"]}
{"id": "C106", "title": "Any structure declared with tables! comes back", "statement": "For every structure that derive(Serialize, Deserialize) is applied to as tables! does (fields with their own code, Counted and Counted32 lists, Offset16/32, CountedOffset16/32, nested structures): if every structure with offsets either stands behind an offset (or at the start of a table) with exactly its first field marked [offset_base], or inside another one, being [embedded] in a field marked [embed] and with no [offset_base] of its own; if every part with its own code is written and reads back by itself and its ot_binary_size is right; and if counts fit, then a value that takes at most 65535 bytes with all tables below it is written, as exactly so many bytes; whatever is written reads back equal, anywhere in a file, with the cursor behind the structure's own fields (32-bit offsets beyond 65535 excepted), and is written again as the same bytes. Writing never panics by itself. All declarations of the crates with lists or offsets are of this kind except FeatureVariations and what is in it, GSUB 1.1, GPOS 1.1, GDEF 1.2 and 1.3 (mark glyph sets), and MATH constants, italics corrections, top accents and assemblies: these are read from the wrong place, refused, or written so that reading panics. An offset whose table was removed by setting link to None is written as a pointer to the next table.", "quantifier": "every structure declaration, every value of it, every surrounding file", "why_tests_cant": "the generated code depends on the declaration, and the offsets on every value in the tree; tests see a few declarations with a few values", "anchors": ["crates/otspec_macros/src/ser.rs", "crates/otspec_macros/src/de.rs", "crates/otspec_macros/src/tables.rs", "crates/otspec/src/offsetmanager.rs", "crates/otspec/src/offsets.rs", "crates/otspec/src/counted.rs", "crates/otspec/src/layout/common.rs"]}
{"id": "C107", "title": "Structures declared with tables! stand in files as declared", "statement": "A declaration with tables! describes bytes: fields one after the other, counts and offsets big-endian in 2 or 4 bytes, each offset zero for no table and otherwise the distance of the table from the start of the table the offset stands in (for a structure embedded in another, of that one). For every structure whose attributes are as C106 needs them: whatever is written stands like this in every file it is put into, from its start to the end of its own fields; and reading any bytes, whoever made them, with shared tables, gaps and any order, returns a value if and only if it stands there like this (offsets to tables being at most 65535), leaving the cursor behind the structure's own fields and the stack as it was. The types with code of their own are only assumed to read the same wherever the current table starts.", "quantifier": "every structure declaration, every value, every file and position", "why_tests_cant": "a round trip cannot show a mistake that writer and reader share; files from elsewhere can lay tables out in ways the writer never does", "anchors": ["crates/otspec_macros/src/ser.rs", "crates/otspec_macros/src/de.rs", "crates/otspec/src/offsetmanager.rs", "crates/otspec/src/offsets.rs", "crates/otspec/src/counted.rs"]}
{"id": "C108", "title": "Tables made from scratch are what they should be", "statement": "head::new with any single-precision revision below 32768 gives a table whose 54 bytes are version 1.0, the revision, no checksum, the magic number, flags 3, the units per em, the two clock readings in seconds, the box, and 0, 6, 2, 0, 0; it reads back with the revision off by at most 1/65536 and without fractions of seconds. maxp::new05 and new10 are written as 6 and 32 bytes, read back equal and have the number of glyphs given; set_num_glyphs changes nothing else. post::new and set_version with a version in 32nds below 256 give tables that read back with everything given, the names exactly for version 2 (which then must have them); versions that are negative or from 65536 on panic; a version above 2 by at most 409/65536 is written as version 2 without names, which cannot be read. The four constructors of STAT axis values make exactly those values that fit one format, so that tables made of them read back equal.", "quantifier": "every revision, box, clock reading, number of glyphs, statistic, version, angle, list of names, and axis value", "why_tests_cant": "the values are 16 to 64 bit numbers and lists of any length; the unreadable versions are a tiny interval", "anchors": ["src/tables/head.rs: new", "src/tables/maxp.rs: new05, new10, num_glyphs, set_num_glyphs", "src/tables/post.rs: new, set_version", "src/tables/STAT.rs: new_format1, new_format2, new_format3, new_format4"]}
{"id": "C109", "title": "Layout tables are written and read as their declarations say", "statement": "The code that derive(Serialize, Deserialize) generates from the tables! declarations of ScriptList, FeatureList, MarkArray, CursivePosFormat1 and of every GSUB subtable format (SequenceContextFormat3, which has a plain Vec, excepted) writes, for every value, exactly the bytes of the layout that the claims about those tables are stated for: the fields in order, then the tables behind Offset fields, then those behind lists of offsets and embedded records, each followed by its own, and offsets counted from the table they stand in; it fails exactly when that layout cannot be written. More generally this holds for every declaration in which embedded records hold offsets only as single fields. Script lists, feature lists, mark arrays, cursive attachments and every GSUB subtable (again excepting SequenceContextFormat3) are also read alike from any bytes at any position: the same values and the same cursor, or the same failure; where a lookup type has several formats, the first two bytes choose the declaration, and formats not declared are refused. The headers of GSUB and GPOS (version 1.0, with their lists of lookups), the attachment points, carets and mark glyph sets of GDEF, character maps of formats 12 and 14, and the whole MATH table are read as declared as well. Character maps of these formats, attachment points and mark glyph sets are also written as declared. A GDEF table of any version is read as the declared gdefcore11 followed by the fields of later versions. The whole GDEF table is also written as declared, of version 1.2 or, with an item variation store, 1.3, as long as its carets are coordinates or points. Item variation stores and avar tables are written and read as declared, and coverage tables and class definitions as the number of a format and the structure declared for it.", "quantifier": "every value of these structures and of every such declaration; every file, position and stack of table bases", "why_tests_cant": "it compares two descriptions of the same bytes on structures of any size and depth", "anchors": ["crates/otspec_macros/src/ser.rs", "crates/otspec_macros/src/de.rs", "crates/otspec/src/offsetmanager.rs", "crates/otspec/src/layout/common.rs", "crates/otspec/src/layout/gsub1.rs", "crates/otspec/src/layout/gsub2.rs", "crates/otspec/src/layout/gsub3.rs", "crates/otspec/src/layout/gsub4.rs", "crates/otspec/src/layout/gsub8.rs", "crates/otspec/src/layout/gpos3.rs", "crates/otspec/src/layout/contextual.rs", "crates/otspec/src/tables/GSUB.rs", "crates/otspec/src/tables/GPOS.rs", "src/tables/GDEF.rs", "src/tables/cmap.rs", "src/tables/MATH.rs", "src/otvar/itemvariationstore.rs", "crates/otspec/src/tables/avar.rs", "crates/otspec/src/layout/coverage.rs", "crates/otspec/src/layout/classdef.rs"]}
{"id": "C110", "title": "The tables! macro makes of a declaration what it says", "statement": "Any sequence of declarations written for tables! - a name, pragmas in brackets, and in braces fields written as pragmas, a type name or one of Maybe, Counted, Counted32, Offset16, Offset32, CountedOffset16, CountedOffset32 with a type in parentheses, and a name - is turned into one public structure for each, in order, with the fields in order: Fixed and F2DOT14 become f32, Version16Dot16 U16F16 and LONGDATETIME a NaiveDateTime, read and written through those types; lists become Vec or VecOffset types read and written with their counts; the pragmas of the table decide what is derived. Conversely whatever the macro accepts is such a sequence, or a structure results with a type that does not exist (compile_error). The derived code writes, measures and reads the fields in declared order exactly as the model of C106 says, asks exactly the offset fields and the embedded and list fields for what lies behind them, and writes what is behind offsets unless the structure is embedded. It compiles exactly if no pragma is repeated on a field or follows the last field (and, where nothing is derived, no attribute is left over). All declarations of the crates are of this form, and those without Maybe or plain generic types are the structures of C106, field by field. Further tokens in parentheses are ignored.", "quantifier": "all token sequences; all sequences of declarations; all values, files and positions", "why_tests_cant": "it is about every program that may be written in the macro's language, not about the tables that happen to be tested", "anchors": ["crates/otspec_macros/src/tables.rs", "crates/otspec_macros/src/ser.rs", "crates/otspec_macros/src/de.rs", "crates/otspec_macros/src/internals/attr.rs"]}
{"id": "C111", "title": "The offset manager lays tables out depth first, direct offsets before lists", "statement": "Writing a structure with offsets builds a graph with a node for each offset, orders it topologically, gives each node a place, stores in each offset the distance from its owner and writes all nodes in order. For every structure of less than 2^32 bytes in all that takes at least one byte itself (or has no offset fields), the result is the depth-first layout: the structure, then for each of its direct offsets in order and then for each offset in its lists and embedded records, the table with all that belongs to it; every offset holds the distance from the start of the table it is in to the table it leads to; null and missing offsets take no further bytes. What the offsets held before (as after reading a file) makes no difference. An Option<Offset> whose distance does not fit makes it panic, an Offset whose distance does not fit makes writing fail. A structure that takes no bytes at all but has offset fields (all missing) cannot be written: it panics.", "quantifier": "every structure, however deep, with any number of direct, listed, null and missing offsets of 16 or 32 bits, whatever the offsets held before", "why_tests_cant": "Tests lay out a few small structures; the order of a topological visit of the graph, the places it assigns and the distances stored follow for all shapes of trees only by induction.", "anchors": ["crates/otspec/src/offsetmanager.rs", "crates/otspec/src/offsets.rs", "crates/otspec_macros/src/ser.rs"]}
{"id": "C112", "title": "F2DOT14 numbers are equal exactly if they are stored alike, and ordered and hashed to match", "statement": "Two F2DOT14 numbers are equal exactly if they are written as the same two bytes (or neither can be written). For numbers that can be stored (from -2 - 1/32768 up to but not including 2 - 1/32768) comparison never fails, never contradicts the order of the numbers, tells apart all numbers 1/16384 or more apart, is transitive and antisymmetric, says 'equal' exactly when == does, and hashes are equal exactly when the numbers are. Outside that range ordering and hashing panic, while all such numbers are equal to each other (3 and 5, say) and to none inside.", "quantifier": "all pairs and triples of f32 numbers", "why_tests_cant": "Tests compare a few numbers; that equality, order and hash agree with the stored bytes for all pairs needs an argument about rounding.", "anchors": ["crates/otspec/src/types.rs"]}
{"id": "C113", "title": "Asking about offsets tells the truth: sizes, whether they need resolving, and what resolving does", "statement": "For every structure declared with tables!: it is written as its own ot_binary_size plus the total_size_with_descendants of each of its offsets, byte for byte in length. Nothing that was read from a file ever needs resolving. resolve_offsets gives a structure equal to the one given, which is written as the same bytes and which resolving again leaves as it is; and the structure can be written exactly if any_offsets_need_resolving is false after resolve_offsets, which is always so when it takes at most 65535 bytes with everything behind its offsets.", "quantifier": "all declarations (any nesting of plain, counted, offset, offset-list, embedded fields), all values, all bytes read", "why_tests_cant": "The unit tests resolve three small fixed structures; whether sizes add up and resolving suffices depends on the nesting of declarations and on the sizes of tables, which are unbounded.", "anchors": ["crates/otspec/src/offsets.rs", "crates/otspec/src/offsetmanager.rs", "crates/otspec_macros/src/ser.rs"]}
