# Formal model of fonttools-rs

Source under study: `/repo` (Rust workspace: `fonttools`, `otspec`, `otspec_macros`,
`designspace`). The code is read as text only; nothing from it is compiled or run.

## Layout

| path | contents |
| --- | --- |
| `properties.jsonl` | the claims C01.., in English |
| `lean/Verif/Model/*.lean` | executable definitions, each citing the file and lines it models |
| `lean/Verif/Lemmas/*.lean` | helper lemmas (no claims) |
| `lean/Verif/Props/*.lean` | property theorems, each with a non-vacuity `example` |
| `MANIFEST.json` | claim → status → theorem names |
| `seeded/LOG.jsonl` | mutation tests: bug seeded in a scratch copy of the model, theorems that broke |

## Conventions of the model

* **Outcomes.** `Res α = ok a | err | panic`. `Result::Err(_)` is `err` (messages are dropped);
  `panic!`, `unwrap` on `None`, slice index out of range, `unimplemented!` and *arithmetic overflow*
  are `panic`. Overflow is a panic in Rust's debug profile only; in release it wraps. A theorem that
  concludes `= .ok _` therefore holds in both profiles; a theorem that concludes `= .panic` from an
  overflow describes the debug profile (release silently wraps) and says so.
* **Numbers.** Machine integers are Lean's `UInt8/16/32/64`, `Int8/16/32/64` in data that is stored,
  and `Nat`/`Int` with explicit range checks where the Rust code computes.
* **Reader.** `ReaderContext` = `Rd` (input bytes, cursor, stack of table bases). `Reader α := Rd →
  Res (α × Rd)`. The state after an error is not modelled (no caller observes it) except by the
  "read until error" `Vec` reader, which is modelled with the state at the last success.
* **Citations.** Each definition's comment cites file and lines in the repository; inside a file of the model that is about
  one Rust file the file name may stand in the heading only. A definition whose comment has no line numbers stands for an
  operation of Rust, of its standard library or of another crate (named in the comment), or only gathers or selects what
  other definitions give.
* **Writers** are `List UInt8` when they cannot fail, else `Res (List UInt8)`.
* **Maps.** `BTreeMap` = strictly key-sorted association list. `HashMap`/`HashSet` = function or
  list whose order is never observed.
* **Floats.** A value that is always `packed/16384` is modelled by its packed integer. Elsewhere f32
  arithmetic is modelled in exact rationals, or with an uninterpreted rounding function where the claim
  is about rounding. Where exactness matters, that is listed under "not modelled".
* **External crates** (`encoding`, `chrono`, `kurbo`, `petgraph`, `permutation`, hashing) are parameters
  or exact models; each is listed in the trusted base.

## Plan per property

| id | model | proof |
| --- | --- | --- |
| C01 | byte codecs of the primitives on `Rd` | case analysis + linear arithmetic, composed through a predicate "reads exactly these bytes at any position" |
| C02 | `Counted`, `Counted32`, `de_counted` over any element codec | induction on the list; refutation at 65536 |
| C03 | `consume_or_peek`, primitive readers, counted readers | invariant by induction on count |
| C04 | packed conversions with rounding function `fl` that fixes exactly representable rationals | arithmetic on rationals; for arbitrary f32 numbers, the sum v + 1/2 is shown to be representable except just below 1/2 (`Props/Nearest.lean`) |
| C05 | offset trees, `OffsetManager` serialization (preorder) and `set` range check | structural induction over trees |
| C06 | `Offset` deserializer | unfolding; witness for > 65535 |
| C07 | coverage formats 1/2 | induction over runs |
| C08 | class definition formats 1/2 | induction over runs |
| C09 | device packing | induction over words |
| C10 | value record codec | case analysis on presence of fields |
| C11–C17 | conversions between high-level maps and binary records | list inductions; refutations with concrete witnesses |
| C15–C16, C65–C68 | all GPOS subtables except contexts: `Model/Gpos.lean` (value records inside pair sets and arrays, anchors, mark and base arrays, ligature attachments) | every writer yields an offset tree that its reader reads back (`writes_pos`); high-level maps are compared as lists of keys and adjustments |
| C69–C70 | whole GPOS tables (`Model/GposTable.lean`), extension lookups | as C56–C57, with subtables that are read back in another form than written (`LayoutTablesAs`); room in Props/GposRoom |
| C18–C21 | font directory writer and reader | arithmetic mod 2^32 over concatenations; induction over tables |
| C22 | `from_bytes` | refuted by a concrete byte string; partial: well-formed inputs |
| C23–C24 | table store as state machine over histories | invariant/refinement to an abstract map |
| C25, C58–C60 | `Font::write`: glyf/loca/head/hhea/maxp compilation, GSUB/GPOS compilation, writing all tables | transferred to independent values by simulation (C24), then the effect of each step; `InFile` is stated through `Font` loading (C19) |
| C26 | glyf/loca compilation | induction over glyphs |
| C27 | hmtx | list induction on the common tail |
| C28–C29 | simple glyph and component codecs (transformations over ℚ) | an independent description of the OpenType byte format (`DescribesSimple`, `DescribesComposite`); the reader reads everything described, the writer writes something described |
| C30 | contour utilities | an independent relation (`MadeExplicit`, `Implied`) on contours; list induction |
| C31–C32 | bounds, flattening (kurbo's `Affine` and `Rect` over ℚ instead of f64) | `TightBox` and the moved-corner argument; `Expands` is the path-composition relation, unique, and the code's depth limit gives totality; `ExpandsWithin` and `DanglingWithin` describe the outcome for every graph, with the depth limit |
| C33 | cmap format 12: `from_mapping`, `to_mapping`, codec | invariant of the grouping loop (closed groups plus the open one mean the entries so far); meaning by an independent byte-level lookup `Maps12` |
| C34 | cmap format 4: segmentation, deltas, codec | segments tile the codes; each segment means its part of the map; meaning by the OpenType lookup `Lookup4` on bytes; beyond 65535 bytes the last code of the last array segment is lost |
| C35–C36 | choice of a mapping, reversed map | list induction |
| C37–C40 | packed deltas/points, tuple headers and stores | independent descriptions of the OpenType bytes (`DeltaRuns`, `DescribesPoints`, `DescribesHeader`, `DescribesStore`); the reader reads everything described, the writer writes something described |
| C41–C42 | IUP interpolation and optimiser | interpolation equals a pointwise function of the nearest references (relative error bound of f32 rounding); every link of the optimiser's chain is verified by `can_iup_between`, a chain that goes once round is lossless, rotation and doubling move chains |
| C61 | gvar point numbering | induction over contours and pushed points |
| C62 | `GDEF` with attachment, caret, class tables (`Model/Gdef.lean`) | through the offset framework on top of C07 and C08; every kind of table that does not survive is shown by a witness or in general |
| C43 | `support_scalar`, with every f32 operation rounded | monotonicity of rounding gives the range; error propagation along the product gives the distance from the specification |
| C44 | `VariationModel::new`, supports, weights, `get_deltas_and_supports` over ℚ | the comparison of masters is a total preorder, so sorting puts shorter masters first; each cut of a box excludes the earlier master that caused it and (staircase) those before; the system is triangular |
| C45 | `ItemVariationData`, `VariationRegionList`, `ItemVariationStore` | an independent description of rows with any number of two-byte columns; the store through the offset framework, with 32-bit offsets that must stay below 65536 to be readable |
| C46 | `Model/Instancer.lean`: limits, `populate_defaults`, normalisation, `pin_tuple_variation_axes`, merging, `instantiate_gvar`, the whole `instantiate_variable_font` f32 rounding throughout | influence is a product over axes, so it splits into pinned and free ones; error of the rounded product (C43), of scaling and of rounding to i16; merged deltasets add up; induction over contours |
| C63 | `instantiate_fvar` | filters and zips of lists; 16.16 numbers that differ do so by more than the epsilon |
| C64 | `instantiate_avar`, narrowing of maps | no limit is normalised to a negative number (C49), so narrowing drops the pair at -1 and the map is refused |
| C71 | the whole of STAT.rs (`Model/Stat.lean`); f32 numbers are rationals, `Fixed` as in C04 | every format is read from its bytes; the offsets are the running sums, by induction over the values |
| C72 | `instantiate_STAT` and its place in `instantiate_variable_font` | as C63: 16.16 numbers that differ do so by more than the epsilon |
| C73 | the whole of os2.rs (`Model/Os2.lean`); block names are left out | field by field, by version |
| C74 | the block table as it stands, `glyph_unicode_range` over any search that only finds matching blocks, and `binary_search_by` of Rust 1.52-1.83 and of 1.84 on; the walk of the hash set is any permutation | C75 for the words; a search is run for all code points of a block at once, and such a run is sound for each of them |
| C75 | `filtered_bitset_to_num`, `int_list_to_num`, with overflow | adding a power of two at a clear bit sets that bit only |
| C76 | `calc_code_page_ranges` | against a table of code pages with the characters each needs |
| C77 | cmap format 14: grouping by selector, codec with 32-bit offsets, `Model/Cmap.lean`; the length is summed without overflow checks | grouping keeps each selector's entries in order; C05 for the places; meaning by an independent byte-level reading `ListsSequence` |
| C78 | `cmap::to_bytes` and `from_bytes`; the hash of a mapping is an arbitrary function | invariant of the writing loop (a remembered offset is where the first subtable with that hash is) |
| C79 | `as_maxp10`, `composite_maxp_values` (`Model/MaxpStats.lean`); stack depth is not modelled, the `u16` depth counter is | the component graph followed by an inductive relation; both directions by induction over it |
| C80 | `Glyph::decompose`, `Point::transform` (exact rationals for f64) | list induction; with C32 for flattened tables |
| C81 | the writers modelled for the round trips of the same tables | a small description of tables (`Cell`: number, fixed point number, bytes, null offset, offset to rows) that does not mention the writers or the readers; the writers' bytes are compared with it row by row |
| C82 | the writers of GSUB, GPOS, GDEF and item variation stores, as modelled for their round trips | the same description of tables as for C81, with offsets leading to places of which a predicate is true (`Cell.ref`); the rows of the specification are given for each subtable, and what the serialised offset tree holds (C05) is compared with them |
| C83 | `open_font`, `save_font` and the bodies of the tools as programs over the table store (Model/Cli); other tables' readers are a parameter | the store is simulated by one whose entries are independent (as for C60); what every table stands for after opening is an invariant (`Stands`), what it is written as another (`Left`); saving twice gives the same adjustment because the sums agree |
| C84 | `ttf-rename-glyphs` (Model/Cli: `renameBody`, `productionName`, `renameFrom`) on top of the models of cmap, post and the table store | the hexadecimal name is described by its value and length, not by an algorithm, and shown to be unique; characters of a glyph by C36; reading back by C51 |
| C85 | `ttf-optimize-gvar` (Model/Cli: `gvarBody`, `encGvarWith`); the order of equally frequent peaks is a parameter `order`, constrained by `MostCommonFirst` | from the table store (`tool_spec`) to C53: `MayWrite`, C53_roundtrip, C53_never_longer |
| C86 | `ttf-flatten-components` (Model/Cli: `flattenBody`), the save of a changed glyf table (Model/FontSave) | `flatten_spec` from the table store to the tables of the new file (`NewGlyphs`); every glyph that was read is written in a form that is read again (C28_reread, C29_reread), the offsets by C26_reload_as, the tree of components by C32 and C80 |
| C87 | `ttf-instantiate` (Model/CliInstance): the arguments, `instantiate_variable_font` as a program over the table store; how `f32::from_str` reads numbers is a parameter | `instance_spec`: a run over the store is a run of `instantiate` (C46) on the tables that were read, followed by the save of what changed (`Instanced`, `NewOutlines`); then C46, C47, C59 and C86's save of glyf |
| C88 | the readers of C56 and C78 | `Finds`, `FindsAt` (Lemmas/Finds): wherever bytes show the rows of the specification, the reader gives the value, whatever else is in the file; rows for every subtable format (`subRows`) and for the lists (`saysRows`), in the language of C81. Then the conversions, compared with what OpenType says subtables mean (`singleMeans`, `sequenceMeans`, `reverseMeans`, C13's `applyLigatures`, C55's matching) |
| C89 | the readers of C67 and C78 | as C88, with `posRows` for the subtable formats of GPOS, `AnyDeviceAt` for devices, and what OpenType says subtables mean in `singlePosMeans`, `pairPosMeans`, `cursiveMeans`, `attachMeans`, `attachLigMeans`; contexts by C55 |
| C90 | the reader of C62 | as C88, with `anyGdefRows` for the formats and `glyphClassSays`, `attachSays`, `caretsSays` for their meaning |
| C91 | the readers of the small tables | converse of C81, with the rows of C81 where the format leaves no choice and `anyFvarRows`, `NameAt`, `post2Rows`, `anyStatRows` where it does |
| C92 | the readers of C33, C34, C77 and C78 | for any bytes: `Valid4`, `Valid12`, `Valid14` say that the bytes follow the formats, `Lookup4`, `Maps12`, `ListsSequence` (those of C34, C33, C77) what they mean |
| C93 | the readers of `loca` and `glyf` (C26, C28, C29) | for any bytes: `OutlinesSay` says that `loca` locates valid descriptions of the glyphs in `glyf` |
| C94 | the reader of gvar (C53) with those of C37–C41 | for any bytes: `GvarStored` says that the table stores variations (`DescribesStore` of C40) for its glyphs, `VariationSays` what each means |
| C95 | `Math.readMath` and the derived readers below it | for any bytes: `MathStored` is the table of the specification, `MathStoredOuter` the one the reader expects; they agree where no offset is in the wrong structure (`outer_of_plain`) |
| C96 | `Whole.fromBytes` and `Whole.Formats` (Model/AllTables: the table store of C23 with the readers of all tables) | the directory as byte ranges (`C96_tables`); `Holds`: nothing was replaced, kept by every read-only operation; then C88 to C95 for each table (`EveryTable`) |
| C97 | `Whole.fullyDeserialize`, `Whole.Font.countOf` | a table is absent, read, an error or a panic (`four`), each with its outcome of loading; what has been read stays read |
| C98 | `toPath`, `fromPath` (Model/KurboPath), with kurbo's path elements and `segments()` | `outline`: what each point adds, given its neighbours around the contour; `Trace`: the points and segments of a stretch, closed under appending and reversing |
| C99 | `removeOverlap`, `skiaToGlyf` (Model/Overlap); `simplify` is an arbitrary function | `Sub`: a closed subpath; `DrawnAs`, `ReadAs`: a contour and a subpath with the same outline; on files (Props/OverlapFile) as for C86 |
| C100 | `breaks`, `crunchPath`, `crunchContour` (Model/Crunch), `f64` as exact rationals; the optimiser is an arbitrary function | `Crunched`: what is drawn, stretch by stretch; `outline` as for C98; on files (Model/CliCrunch, Props/CrunchFile) as for C86 |
| C101 | `simplify`, `editMath` (Model/EditMath): the tree handed to `serde_json`, whose printing is trusted; names are compared by code points, which for UTF-8 is the order of `String` | `Prints`: which keys and numbers are there, name by name |
| C102 | `Thetas.new`, `findBreaks`, `search`, `optimiser` (Model/CrunchOpt), `f64` as exact rationals; the numerics (`rk4` steps, `unitize`, `measure_quad`, which has a square root) and the arithmetic of scores are arbitrary functions | `Connected`, `Piece`, `Joint`, `Sampled`, `Scored`: what the chain of curves is like, where its ends come from, and what it costs |
| C103 | `Item.same`, `St.same`, `Font.same` (Model/FontEq) on the states of the table store; the comparison of values is a parameter (in the code it is derived, except that offsets compare what they point to and `F2DOT14` compares what is stored) | `Content`, `SameContents`: the same tags, each unread with the same bytes or read with equal values |
| C104 | `addToFont`, `newTables`, `addAxes`, `addInstances`, `locationToTuple`, `defaultMaster`, `masterLocation`, `variationModel` (Model/Designspace) on the states of the table store with the real parsers, in `f32` arithmetic; a document is given by its fields, reading XML and `labelname`, `yvalue`, layers and the like are not modelled; the counter of names is a `u16` that panics on overflow, as in debug builds | `DescribesFont` (records of `fvar`, names, maps), `Coordinates`, `MapAccepted`, `IsAt`, `LiesAt` |
| C105 | `expandTag`, `expectTagLiteral`, `parseCooked` of the `tag!` macro, `fromText`, `asStr`, `eqStr`, order and hashing of tags (Model/TagMacro). Not modelled: the macro looks only at its first token; how a token stream is made. | the meaning of string and byte string literals is Rust's grammar as inductive relations; the macro's parser by induction on them; the expansion stands for four bytes only if nothing in it is escaped |
| C106 | the code generated by `derive(Serialize, Deserialize)` for any structure: `Ty`, `size`, `place`, `toBytes`, `read` (Model/Derive), and the declarations of the crates (Model/Declarations). How the macros produce that code: C110. Not modelled: `Maybe(..)`, plain `Vec` and generic fields; structures with `[nodeserialize]` | `WellDeclared` and `Fits` are separate; induction over declarations: where everything is put (`PlacedAt`), then that reading finds it; the declarations are audited one by one; the negative results by evaluation |
| C107 | as C106 | `Laid` says where the bytes stand, without any function of the model except the types' own code; written: from the placement of C106; read: induction over declarations, in both directions |
| C108 | `newHead`, `newMaxp05`, `new10`, `newPost`, `setVersion`, `newFormat1` to `newFormat4` (Model/NewTables, Model/MaxpStats); the clock is two arbitrary dates; `U16F16::from_num` rounds to nearest, ties to even, and panics when the number does not fit (crate `fixed`, debug assertions on) | bytes by unfolding; reading back from C04, C51, C52, C71 |
| C109 | both `Model/Derive` (generated code for any declaration) and `Model/Offsets` (a table as the row of what its fields write), with the tables and readers of Model/LayoutTables, Model/Gsub, Model/Gpos; Model/Cmap (formats 12 and 14), Model/Gdef (whole tables; carets of format 3 are only read); Model/ItemVar, the avar table of Model/Fvar, Model/Coverage (both formats of each table); readers only: the headers of GSUB and GPOS, Model/Math. The format number of mark glyph sets is not kept by the program, so the value read is some value with that field. A table whose coverage panics when written is left out (`tab = .ok T`) | `IsTab` relates a value to a row of fields without any function of either model; induction over declarations: sizes, own bytes, placement and children agree; runs of bytes may be joined; readers: a relation `Alike` closed under sequencing |
| C110 | the `tables!` macro from token trees to structures (`expandTables`, `fieldLoop`, `wrapper`), the attributes (`fieldAttrs`), the code derived (`deriveSer`, `deriveDe`) and what running it does (`runWrites`, `DeCode.run`) (Model/TablesMacro); the text of all 118 declarations (Model/DeclaredText). Simplified: spans, visibility, generics, `Self`, `cfg(nightly)`; output as structures, not tokens; names stand for types (`Sensible`) | declarations as separate syntax (`TableSrc`) with their tokens and their meaning; induction over fields; conversely induction over tokens; the crates' declarations by evaluation |
| C111 | `add_object_graph`, `resolve` (both passes), `serialize`, `resolve_offsets_and_serialize` on a graph with numbered nodes and weighted edges; `Topo` as a stack machine with a bound on its rounds (Model/OffsetGraph). Offsets are resolved twice, by two managers, from any contents | the graph of a structure is a tree numbered in postorder (`number`, `Rep`); the visit gives its preorder (`topo_forest`); first pass: `Placed`; second pass: `Good`, or a panic exactly if an optional offset does not fit; then equality with the recursive model of Model/Offsets, on which all other properties of written tables rest |
| C112 | `PartialEq`, `Ord`, `PartialOrd`, `Hash` of `F2DOT14` (types.rs:131-157), on `as_packed` of C04 (Model/F2dot14Ord) | the packed number is the nearest multiple of 1/16384, ties upward, which is monotone; it fits in 16 bits exactly in the stated range |
| C113 | `needs_resolving`, `total_size_with_descendants` (offsets.rs:86-106), `any_offsets_need_resolving`, `resolve_offsets` (offsetmanager.rs:118-142) over every declaration of C106 (Model/DeriveAsk); `Option<Offset>` is not among the declarations | mutual induction over declarations: what `place` adds is the total; every reader stores a number in every offset; bytes exist exactly if every offset listed has a number |
| C47 | `SegmentMap::piecewise_linear_map`, `is_valid`, designspace `piecewise_linear_map`, both directions of an axis map, all with f32 rounding after every operation | a value lies outside, on a point or between two neighbours; rounding is monotone, and on the stated number ranges an interpolated value cannot cross the neighbour's value |
| C49 | `normalize` (instancer), `normalize_designspace_value`, the segment map of `add_to_font` with f32 rounding | quotient of a part by the whole; rounding error bounds; no listed point can be (0, 0) |
| C54 | `normalize_userspace_value` with f32 rounding | three branches, monotone rounding |
| C48 | `avar`, `SegmentMap`, `fvar`, axis and instance records with 16.16 and 2.14 rounding | composition of record round trips; header fields located by position |
| C50 | `name`, `get_encoding`, `windows_unicode`, UTF-16; legacy encodings are arbitrary functions | induction over records with the string pool split at the current record |
| C51 | `post` with all 258 standard names, `Version16Dot16` in f32 | indices and stored names by one induction; stored names read to the end of input |
| C53 | `gvar` (`Model/Gvar.lean`): deltasets, choice of deltas, shared peaks (any order `most_common` may give), glyph loop, reader | C40 for each glyph's store, C41/C42 for omitted deltas, offsets as running sums; `C53_too_short` shows where the extra shared tuple is missing |
| C55 | contextual rules as matchers over glyph runs | equivalence with a separate matcher for the binary subtables |
| C56–C57 | whole GSUB tables, extension lookups | composition of the codecs above through offsets; conversion of lists of subtables; the bytes a table takes are bounded part by part (`Room`, Lemmas/TabRoom; Props/GsubRoom) |

## Trusted base

* Lean 4.33.0 kernel; Mathlib as installed. Axioms: at most `propext`, `Classical.choice`, `Quot.sound`.
* The reading of the Rust source by hand: each definition cites the lines it models, and says where
  it simplifies. No extraction or differential testing connects model and code (no build is possible here).
* What other crates do, where a model stands for it: the standard library's collections, sorting and integer and float
  arithmetic; `petgraph` (edges listed newest first, `update_edge`, `Topo` keeping a stack and pushing a neighbour once all
  its predecessors were visited); `fixed`, `chrono`, `encoding`, `permutation`, `kurbo` and the printing and parsing of
  `serde`, as said at the definitions that use them. Their sources are not part of the repository.

## Disagreements found

Places where the code does not do what a user would expect, each with a theorem that shows it.

| claim | what happens | theorem |
| --- | --- | --- |
| C02 | counted lists of 65536 or more elements are written with a truncated count | `C02_counted_truncates`, `C02_counted_65536_lost` |
| C04 | large odd fixed-point numbers change when read into f32 | `C04_fixed_large_odd_changes` |
| C04 | adding 0.5 before flooring rounds the number just below 1/2 unit up, though 0 is nearer | `C04_fixed_not_nearest` |
| C108 | a `post` version slightly above 2 is written as version 2 without names, which cannot be read | `C108_just_above_two` |
| C05 | an optional offset that overflows panics instead of returning an error | `C05_outcome` |
| C07 | coverage of glyph 65535 panics in several operations | `C07_last_glyph_panics`, `C07_max_inside_panics` |
| C08 | glyphs with explicit class 0 change on a round trip | `C08_class_zero_glyphs_change` |
| C09 | the suggested device format can be too narrow for the deltas | `C09_suggested_format_loses` |
| C10 | the y-placement device is read exactly if the x-placement device flag is set | `C10_y_device_follows_x` |
| C11 | a constant shift whose signed distance does not fit panics | `C11_overflow_panics` |
| C13 | a ligature with an empty key panics | `C13_empty_key_panics` |
| C14 | plain contextual rules can never be written | `C14_plain_never_written`, `C56_plain_context_never_written` |
| C15 | pairs whose records differ in the fields they use are written with one format for all but without padding: unreadable or other pairs | `C15_mixed_formats_corrupt` |
| C16 | base anchors of classes above those of the marks are dropped; class 65535 panics | `C16_anchors`, `C16_last_class_panics` |
| C65 | a rule for no glyph panics; different adjustments with devices cannot be written | `C65_empty_panics`, `C65_devices_fail` |
| C67 | a second ligature is read from the wrong place | `C67_two_ligatures_fail` |
| C68 | class-based kerning ignores its coverage | `C68_coverage_ignored` |
| C69 | a GPOS table with a mark-to-mark lookup is written but reading it panics; one with an empty single positioning subtable panics when written | `C69_mark_to_mark_panics`, `C69_unwritable` |
| C70 | extension lookups of contextual positioning are rejected | `C70_context_rejected` |
| C17 | feature parameters are lost; required feature 65535 is lost | `C17_features`, `C17_sentinel_lost` |
| C21 | directory search fields overflow for many tables | `C21_overflow` |
| C22 | malformed fonts crash the loader | `C22_malformed_crashes` |
| C27 | hmtx with no metrics panics; with 65536 glyphs the count wraps | `C27_empty_panics`, `C27_65536_lost` |
| C28 | the overlap mark of a simple glyph is never written; an empty first contour is written as point 65535 and makes reading panic | `C28_overlap_lost`, `C28_first_contour_empty` |
| C29 | component offsets: x is rounded, y is truncated; offsets beside matched points and contours beside components are dropped | `C29_fraction_refuted`, `C29_points_offset_dropped`, `C29_contours_dropped` |
| C30 | a contour whose last and first points are off the curve still has an implied point after making points explicit; an empty contour panics | `C30_closing_pair_left`, `C30_empty_panics` |
| C31 | sides of a composite's box are cut off towards zero, so a scaled point can lie outside by less than one unit | `C31_fraction_outside` |
| C32 | components on cyclic paths are dropped silently; a dangling reference panics | `C32_cycle_dropped`, `C32_dangling_panics` |
| C39 | the flags of a header that was read keep the shared index, so a changed index is mixed with the old one | `C39_stale_index` |
| C40 | a tuple with all deltas omitted, or with all deltas given and the private-points flag set, cannot be read back | `C40_all_omitted`, `C40_private_flag_kept` |
| C41 | references at the same place which move differently give zero, not a value between them (this is OpenType's rule) | `C41_same_place` |
| C42 | the optimiser panics if deltas differ by more than sixteen bits, for contours of 8192 points or more with no forced point, because `n as i16 * 4` is evaluated eagerly, and for contours of 32768 points or more | `C42_far_apart_panics`, `C42_returns_exactly`, `C42_long_panics` |
| C43 | within `f32::EPSILON` of its peak a region has full influence even outside its bounds, so a region with peak 2^-24 acts at the default location | `C43_near_peak` |
| C44 | `_compute_master_supports` computes every cut from the uncut region and inserts it into the copy, so a later cut on an axis overwrites an earlier one (fontTools cuts the region itself); some layouts do not reproduce their masters | `C44_needs_staircase` |
| C47 | `SegmentMap::is_valid` never looks at the order of `from`; on an unordered map it accepts, `piecewise_linear_map` underflows an index and panics. Designspace map inputs are truncated to `i32` keys, so points with the same whole part overwrite each other. |
| C49 | `normalize` of the instancer divides by the whole range and ignores the default: 400 on 100/400/900 becomes 0.375 instead of 0, and no limit ever becomes negative. `normalize_designspace_value` does the same for mapped axes, so `add_to_font` builds a segment map without (0, 0) and panics unless the default maps to the least output. |
| C48 | `fvar::to_bytes` writes every instance's flags as 0, and writes instances with any number of coordinates although the declared record size assumes one per axis: such a table reads back different or not at all. `fvar::from_bytes` leaves its start on the reader's stack. |
| C50 | `name::from_bytes` ignores the storage offset and takes the strings to follow the records (format 1 tables and tables with a gap are misread). Lengths and offsets are cut to 16 bits without a check. |
| C51 | `post::to_bytes` cuts the length of names over 255 bytes to a byte, and writes a version 2 table without names that it cannot read. `post::from_bytes` panics on dangling indices and on names that are not UTF-8. |
| C45 | Delta rows of another width than the number of regions are written and corrupt the table (surplus deltas are cut to a byte); stores with a subtable beyond 65535 bytes are written but reading panics; a null offset to the regions or to data makes reading panic. | `C45_data_wrong_width`, `C45_store_far`, `C45_null_regions`, `C45_null_data` |
| C62 | GDEF: glyphs without a class between two classified glyphs may be read back as base glyphs; mark glyph sets and item variation stores are read relative to the wrong place; carets with a new device table panic on writing. | `C62_gap_becomes_base`, `C62_mark_sets_lost`, `C62_store_lost`, `C62_device_panics`, `C62_device_misread` |
| C54 | Axis values above 2^24 are not exact in f32 and can normalise outside [-1, 1]. |
| C33 | format 12: the first group starts wrong unless the smallest code is 0, so usual maps cannot be read back and lose their smallest code | `C33_unreadable`, `C33_meaning`, `C33_refuted` |
| C34 | format 4 subtables above 65535 bytes are written with a truncated length | `C34_too_big`, `C34_refuted` |
| C52 | dates outside the range of the calendar type panic | `C52_date_out_of_range_panics` |
| C55 | class-based contexts ignore their coverage table and lose explicit class-0 glyphs | `C55_coverage_ignored`, `C55_explicit_class_zero` |
| C25 | the glyph count is set in a copy of maxp that is dropped; the file keeps the old count | `C25_count_kept`, `C25_count_wrong` |
| C58 | hhea gets a new metric count but hmtx keeps its bytes: the file has too many metrics | `C58_metrics`, `C58_metrics_grow` |
| C59 | hmtx, gvar and MATH inserted as values make every save panic | `C59_never_saved` |
| C60 | a font without maxp cannot be saved | `C60_needs_maxp` |
| C57 | extension lookups of type 8 are rejected; empty or mixed ones panic | `C57_type_above_6_rejected`, `C57_empty_panics`, `C57_mixed_panics` |
| C53 | one shared tuple more than there are is read; a table whose data is shorter than a tuple cannot be read back | `C53_too_short`, `C53_too_short_example` |
| C53 | a table without deltasets panics when written | `C53_no_sets` |
| C53 | a region whose start and end equal its peak comes back as the whole side of the axis | `C53_roundtrip` (`comesBack`) |
| C53 | short offsets for distances of 65536 or more, and 65535 glyphs, panic when read | `C53_short_offsets`, `C53_all_glyphs` |
| C46 | a font with a free or limited axis panics at the first varying outline, as does a glyph none of whose deltasets has influence; components do not move; the default location moves outlines | `C46_free_axis`, `C46_range`, `C46_no_influence`, `C46_components`, `C46_default_moves` |
| C64 | limiting an axis of a font with an avar table always panics | `C64_range` |
| C71 | a value with 10922 or more locations is written with a wrapped length; the file cannot be read | `Stat.C71_long_location` |
| C71 | a value with range and linked value loses the range, a missing fallback name becomes 17 | `Stat.C71_roundtrip` (`kept`, `keptTable`) |
| C73 | a vendor with a byte that is not printable, such as zeros, makes the table unreadable | `Os2.C73_vendor` |
| C74 | the block table is binary-searched without being sorted (the comment at os2.rs:506 says it must be): 121 of 169 blocks are never found, and their code points count as Basic Latin | `Os2.C74_missed`, `Os2.C74_missed_font` |
| C74 | a code point outside the basic plane in a block of its own can never set bit 57 and that block's bit | `Os2.C74_one`, `Os2.C74_phoenician` |
| C76 | a font that supports no code page is marked as Latin 1 | `Os2.C76_latin` |
| C77 | format 14: platform, encoding and language are not kept (always 0, 5, 0); lists more than 65535 bytes away cannot be read; no map becomes an empty map | `C77_roundtrip`, `C77_none` |
| C79 | 65536 glyphs are counted as none; a glyph that contains itself panics | `C79_wraps`, `C79_cycle_panics` |
| C80 | contours of nested components are lost | `C80_nested_lost` |
| C83 | opening a font with an unreadable `head`, or with `loca` but without `head`, fails in every tool; saving a font without a readable `maxp` panics, even if no table was changed | `C83_checksum_accepts` |
| C84 | `ttf-rename-glyphs -d` sets the version of a copy of `post` that is never inserted, so no name is dropped | `C84_drop_writes` |
| C84 | without `-d`, a `post` table of version 3, or with fewer names than glyphs, makes the tool panic | `C84_runs` |
| C86 | flattened components that cannot be stored move: x offsets are rounded, y offsets truncated; metrics not stored in the shortest way are corrupted, because hhea is rewritten and hmtx is not; a component of a missing glyph makes the tool panic | `C86_fraction_refuted`, `C86_metrics_grow`, `C86_accepts` |
| C87 | with varying outlines a file is written only if every axis gets one location and some region of each varying glyph has influence, otherwise the tool panics; asking for the default location can move points; HVAR, MVAR, cvar, hmtx, component offsets and boxes stay as they were | `C87_all_pinned`, `C87_influenced`, `C87_default_moves`, `C87_tables`, `C87_pinned` |
| C88 | valid GSUB tables that are not read, or not as they are | single substitution deltas that leave the signed 16 bit range panic instead of wrapping (`C88_delta_overflow`); the order of ligatures is lost, so a shorter one placed first no longer wins (`C88_ligature_order`); reverse chaining in extension subtables is rejected (`C88_reverse_extension_rejected`); an extension lookup without subtables panics (`C88_empty_extension`); version 1.1 is rejected (`C88_version`) |
| C89 | valid GPOS tables that are not read, or not as they are | mark-to-mark lookups panic (`C89_mark_to_mark`); contextual lookups in extension subtables and anchors with devices are rejected (`C89_context_extension_rejected`, `C89_anchor_devices_rejected`); pairs of classes apply to uncovered glyphs of class 0 (`C89_class_zero_uncovered`); cells of zeros no longer stop later subtables (`C89_zero_cells_dropped`); devices of pair sets are taken from a wrong place (`C89_pair_devices`); marks with a null anchor get one at the origin (`C89_null_mark_anchor`); a second ligature is misread (`C67_two_ligatures_fail`); version 1.1 is rejected (`C89_version`) |
| C90 | valid GDEF tables misread | mark glyph sets (`C90_mark_sets`) and the parts of the variation store (`C90_store`) are looked for from the start of GDEF; the device of a caret from the list of carets, which can panic (`C90_caret_device`); explicit or unknown classes become base (`C90_class_zero`); a null list of attachment points panics (`C90_null_attach`) |
| C91 | valid small tables not read | a date outside chrono's years panics (`C91_head_date`); a fixed number with more than 24 bits is rounded (`C91_fixed_rounds`); 16383 axes panic (`C91_fvar_axes`); hmtx with no full metric panics (`C91_hmtx_none`); the storage offset of name is ignored, so all tables of format 1 with language tags are misread (`C91_name_storage`); unknown encodings panic (`C91_name_platform`); maxp of other versions is an error (`C91_maxp_version`); what every name table is read as: `C91_name_any`, `C91_name_first_bad` |
| C92 | valid character maps not read | a subtable of format 0 is read as empty (`C92_format_0`); a subtable of format 2, 6, 8, 10 or 13 makes the whole cmap an error (`C92_other_format`, `C92_format_6`); glyph plus delta overflows `i16` (`C92_overflow`, and always in `C92_sum_panics`); default variation sequences are dropped (`C92_default_sequences`); glyphs of format 12 are cut to 16 bits (`C92_wide_glyph`); glyphs of format 12 are reduced to 16 bits by an addition that panics when a group crosses a multiple of 65536 (`C92_wide_glyphs`, `C92_wide_panics`) |
| C93 | valid outlines not read | a coordinate outside `i16` panics (`C93_overflow`); 32768 or more instruction bytes are taken for none (`C93_many_instructions`); a glyph of no contours is an error (`C93_no_contours`) |
| C94 | valid glyph variations not read | a variation without start and end whose peak is inside the axis reaches to the end of the axis instead of to its peak (`C94_inner_peak`); the offset of the data is not used (`C94_gap`); two-byte counts of points (`C94_many_points`); one shared tuple too many is read (`C94_no_room`); 16-bit sums and doubling overflow (`C94_many_glyphs`, `C94_far_offsets`, `C94_many_tuples`) |
| C95 | valid MATH tables not read | five structures lack `[offset_base]`: italics corrections are lost (`C95_italics_lost`) or go to other glyphs (`C95_italics_misread`), devices can crash the reader (`C95_device_panics`) |
| C97 | `num_glyphs` is stale after `maxp` is replaced | the first answer is kept (`C97_stale`) |
| C98 | `glyf_contour_to_kurbo_contour` of a contour that begins off the curve | the first point is taken as on the curve, which loses a curve (`C98_off_first_wrong`) |
| C98 | `kurbo_contour_to_glyf_contour` of a path with several subpaths | the subpaths are joined, the start of the second one is lost (`C98_subpaths_merge`); a closed path gives its first point twice (`C98_there_and_back`) |
| C99 | `ttf-remove-overlap` turns every contour around; cubics in Skia's answer are misread | `C99_kept`, `C99_cubic_wrong` |
| C99 | `ttf-remove-overlap` on a contour that begins off the curve | a curve is lost (`C99_off_first`) |
| C100 | `fontcrunch` does not redraw what lies between the last break and the first | a circle loses a quarter (`C100_circle_cut`, `C100_lost`) |
| C99 | `gvar` is not adjusted when `ttf-remove-overlap` changes the number of points | `C99_tables`: the table stays, byte for byte |
| C100 | `fontcrunch` does not recalculate boxes | `C100_file` |
| C101 | `ttf-edit-math` leaves out variants and assemblies; glyphs sharing a name overwrite each other; `load` does nothing | `C101_lost`, `C101_load` |
| C102 | the stretch's end is only what the table says there, rounded to halves: if it is not whole, it is cut towards zero when stored. `find_breaks` does not update `lastd` when it replaces a break, so a later, worse sample may replace a better one (read off the source). `xy` and `dir` guard against places beyond the table, but panic within its last unit (`entryAt`) | `C102_optimiser`, `C102_stored` |
| C103 | `==` of fonts depends on which tables were looked up before, although lookups take `&self`; and equal fonts may be saved differently | `C103_lookup_differs`, `C103_counting`, `C103_bytes_differ` |
| C104 | names are numbered from 255 on, a reserved number, whatever the `name` table already contains; axes left out of a location are taken at their user-space default although the other coordinates are designspace values; instance coordinates go to `fvar` without being mapped back to user space; usual maps panic, and if they did not, the default master would not be at the origin; locations lose their fractions | `C104_numbers`, `C104_clash`, `C104_unmentioned`, `C104_adds` (`Coordinates`), `C104_segment`, `C104_off_origin`, `C104_fraction` |
| C105 | `tag!` strips quotes from the ends of the text, refuses to compile (with a confusing message) for texts with a quote or backslash, although `Tag::from_raw` accepts them, and skips Unicode white space after an escaped line end where Rust skips only space, tab and line ends. `Borrow<str> for Tag` breaks the contract of `Borrow`: tag and text hash differently. |
| C106 | `FeatureVariations`, `ConditionSet`, `FeatureTableSubstitution`, `MarkGlyphSets`, `MathConstants`, `MathItalicsCorrectionInfo`, `MathTopAccentAttachment` and `GlyphAssembly` lack `[offset_base]`, `[embed]` or `[embedded]`; an offset with `link` set to `None` is not written as zero | `C106_declarations`, `C106_unbased`, `C106_unembedded`, `C106_inline`, `C106_cleared` |
| C110 | tokens after the first in parentheses are dropped silently, so `Counted(Foo<T>)` means `Counted(Foo)`; a word without parentheses passes the macro and gives a type named `compile_error`; `has_offsets` in ser.rs is true of any structure with fields | `C110_ignored`, `C110_no_parentheses`, `C110_writes` |
| C111 | a structure all of whose fields are missing `Option<Offset>`s takes no bytes, so its children get no place and `c.weight().unwrap()` panics (no declared table is like that) | `C111_empty_panics` |
| C112 | numbers outside the range, such as 3 and 5, are all equal to each other, while ordering and hashing them panics | `C112_three_is_five`, `C112_outside` |
| C78 | subtables are shared by the hash of the mapping alone: a format 12 subtable with the mapping of an earlier format 4 one is written as format 4, languages are lost, and all format 14 subtables become the first | `C78_format_lost`, `C78_sequences_lost` |

## Not modelled

* Of the command line tools: option parsing (but for the axis arguments of ttf-instantiate); of
  `ttf-remove-overlap` Skia's `simplify`; of `fontcrunch` the numerics of
  the optimiser (`rk4`, `arclen`, `unitize`, `measure_quad`).
* The exact text of errors; logging; performance; memory.
* Simplifications are stated at each definition, e.g. a lookup whose mark filtering flag is set without a set
  (`mfsTab` in Model/LayoutTables) is outside the theorems.
