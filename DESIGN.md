# Formal model of PyX in Lean 4

Source: `/repo` (pyx-project/pyx, pinned commit, Python). The code is read as text and never run. The Lean project is
`/verif/lean`; each topic `X` has

* `Verif/X/Model.lean` (and files named after parts of the code) – the model: definitions that follow the Python
  functions branch by branch, each citing file and lines;
* `Verif/X/Spec.lean` or the beginning of `Props.lean` – the specification, small and written without the helpers of
  the model (point sets, stack machines of the file formats, readers of the output, equations);
* `Verif/X/Props.lean` – the property theorems and next to them examples with concrete non-trivial cases.

`seeded/LOG.jsonl` is the log of wrong programs: for each, the definition edited, the edit, the claim it breaks, the
theorems that no longer prove, and those that were tightened because of it.

## Trusted base

* The Lean 4.33.0 kernel and the axioms `propext`, `Classical.choice`, `Quot.sound` (`#print axioms` on each property
  theorem shows at most these). No own axioms, no `sorry`, no `native_decide`, no `bv_decide`. Concrete witnesses use
  `decide +kernel`, `norm_num` or `rfl`.
* The reading of the Python source: nothing connects the model to the code mechanically. Every definition cites the
  lines it stands for.
* Floating point: Python floats are elements of an ordered field (`ℚ`, `ℝ` or a generic `K`), i.e. rounding, overflow,
  infinities and NaN are **not** modelled. Python `int` is `Int` or `Nat` (exact).
* Trigonometric functions, `sqrt`, `log`, `atan2` are the real functions of Mathlib.
* Python exceptions are values (`Option`/`Except`); mutation is modelled by returned values; sharing of objects is
  modelled only where a section says so.
* Loops are structural recursions, or recursions with a bound that is either shown to suffice or stands for Python's
  own limit of the recursion depth, or inductive relations.
* File system, zlib, hashes, TeX, operating system and the consumers of PS/PDF/SVG are parameters or small written-down
  specifications (ASCII85 decoding, PDF strings, DVI machine, Type 1 machine, PNG reader, path machines, ...).

## Parts of the code not modelled

`text.py` except the parsers of TeX output, the engines, the reading of the output and the text attributes, `graph/graph.py` except `graphxy` positions, axes and keys and the projections and axes of `graphxyz`,
`graph/style.py` except `pos`, `range`, `_line`, `errorbar`, `histogram`, `barpos`, `stackedbarpos`, `bar`, `changebar`, `gridpos`, `grid`, `density`, `surface`, `symbol`, `impulses`, `text`, `arrow`, `rect` and the colour keys, `deformer.py` except `cornersmoothed`, `cycloid`, `linesmoothed` and `parallel` without its intersection step, circle, ellipse and line elements of `svgfile.py`,
`tree`-like helper
modules, and everything named under "Left out" below.


## Properties

For each property: the code modelled, what is left out or simplified, how it is proved, and where the code does
not do what the property says. The theorems are those listed in `MANIFEST.json`; names ending in `_partial` prove
part of the claim, names ending in `_wrong`, `_false`, `_fails` and the like refute part of it with a witness.

### C01 Bounding-box union is the least enclosing box (proved)

* Modelled: `bbox.py` `bbox_pt`: union (in place and not), `includepoint_pt`, centre, sizes. A box is `Option` of four elements of an ordered field. (`pyx/bbox.py`)
* Left out: Stale coordinates of an empty box (every method tests `llx_pt` first).
* Proof: A box is compared with its set of points: the union contains both, and is contained in every box containing both; lists by induction (`sum_perm`, `ofPoints_least`).
* Status: Boxes over an arbitrary ordered field.
* Theorems: `BBox.add_upper`, `BBox.add_least`, `BBox.add_proper`, `BBox.add_comm`, `BBox.add_assoc`, `BBox.add_empty`, `BBox.iadd_eq_add`, `BBox.sum_perm`, `BBox.ofPoints_least`, `BBox.center_mem`, `BBox.size_spec`

### C02 Bounding-box intersection and overlap test agree with geometry (partial)

* Modelled: `__mul__`, `__imul__`, `intersects`. (`pyx/bbox.py`)
* Proof: Point sets of the product are the intersection.
* Code against the claim: The product of disjoint boxes is an inverted box and not the empty one; later unions with it are wrong.
* Status: The product of disjoint boxes is not the empty box in the code (inverted box, proved as disjoint_product_not_empty); everything else is proved.
* Theorems: `BBox.mem_mul`, `BBox.imul_eq_mul`, `BBox.intersects_iff`, `BBox.mul_proper`, `BBox.mul_empty_partial`, `BBox.disjoint_product_not_empty`, `BBox.disjoint_product_pollutes`

### C03 Transforming a bounding box never clips and is tight (proved)

* Modelled: `transform`, `transformed`. (`pyx/bbox.py`)
* Proof: Convexity: every point of the box is a combination of the corners; the corners give minimality.
* Theorems: `BBox.transformed_contains`, `BBox.transformed_least`, `BBox.transformed_proper`, `BBox.transformed_one`

### C04 Enlarging a bounding box is exact and composes (proved)

* Modelled: `enlarge(d)_pt`. (`pyx/bbox.py`)
* Proof: Arithmetic on the four sides.
* Theorems: `BBox.enlarged_sides`, `BBox.enlarged_add`, `BBox.enlarged_cancel`, `BBox.enlarged_mem`

### C05 Product of transformations is composition of maps (proved)

* Modelled: `trafo_pt` as a 2x2 matrix and a vector over a field. (`pyx/trafo.py`)
* Left out: Conversion of units except where stated.
* Proof: Ring identities, chains by induction; `ps_matrix_correct` compares the matrix written to PostScript.
* Theorems: `Trafo.mul_apply`, `Trafo.mul_assoc`, `Trafo.one_unit`, `Trafo.chain_apply`, `Trafo.ext_of_apply`, `Trafo.ps_matrix_correct`

### C06 Inverse transformation undoes the transformation (proved)

* Modelled: `inverse`, `_rmatrix`. (`pyx/trafo.py`)
* Proof: Field arithmetic with determinant not zero; `none` is the exception otherwise.
* Theorems: `Trafo.inverse_isSome`, `Trafo.inverse_apply`, `Trafo.inverse_mul`, `Trafo.inverse_inverse`

### C07 Rotations, mirrors and scalings keep their stated geometry (partial)

* Modelled: `rotate_pt`, `_mmatrix`, `scale_pt`, `slant_pt`, SVG attributes. (`pyx/trafo.py`)
* Proof: Trigonometric identities over the reals.
* Code against the claim: `mirror(angle)` mirrors at the line of direction -angle; `slant` moves its centre, slants in the wrong direction and converts the centre twice.
* Status: mirror(angle) mirrors at the line of direction -angle and slant does not keep its centre: proved as negations.
* Theorems: `Trafo.rotate_fixes_center`, `Trafo.rotate_distSq`, `Trafo.rotate_add`, `Trafo.rotate_unit`, `Trafo.rotate_about`, `Trafo.rotate_isSome`, `Trafo.mirror_involutive`, `Trafo.mirror_distSq`, `Trafo.mirror_keeps_negative_line_partial`, `Trafo.mirror_not_keeps_line`, `Trafo.scale_about`, `Trafo.svg_conjugate`, `Trafo.svg_mul`, `Trafo.slantPt_det`, `Trafo.slantPt_origin_partial`, `Trafo.slantPt_moves_center`, `Trafo.slantPt_wrong_direction`, `Trafo.slant_double_conversion`, `Trafo.scale_origin`

### C08 Lengths form a vector space and convert linearly under every scale setting (proved)

* Modelled: `length` (t, u, v, w, x parts), `unit.set`, conversion functions, comparison. (`pyx/unit.py`)
* Left out: Products of two lengths, unknown type letters.
* Proof: All length expressions as an inductive type, all histories of `unit.set`; evaluation is a linear map.
* Status: All length expressions, all histories of unit.set, over any ordered field.
* Theorems: `Unit.convert_eval`, `Unit.inch_consistent`, `Unit.convert_roundtrip`, `Unit.history`, `Unit.true_length`, `Unit.own_scale`, `Unit.compare_iff`, `Unit.le_total_preorder`

### C09 Merging attribute lists keeps exactly the last exclusive attribute (partial)

* Modelled: `mergeattrs` with all merge methods; attributes are a type with an `isinstance` relation. (`pyx/attr.py`)
* Proof: Induction over the list; specification by last occurrences and order.
* Code against the claim: Lists of text attributes are not always a fixed point of merging; `halign` keeps a `boxhalign`.
* Status: Surviving attributes, order and clear proved for all lists; sorting/idempotence need nested sort classes, which hold for the text/stroke attributes except size (counterexample proved).
* Theorems: `Attr.merge_perm`, `Attr.merge_order`, `Attr.merge_sorted`, `Attr.merge_sorted_nested`, `Attr.merge_idem`, `Attr.exclusive_last`, `Attr.clear_class`, `Attr.plain_all`, `Attr.text_nested`, `Attr.text_mutual`, `Attr.text_not_idempotent`, `Attr.text_idempotent_fails`, `Attr.halign_keeps_boxhalign`, `Attr.refine_given`, `Attr.refine_mem`

### C10 Changing attributes select cyclically per plotted data set (proved)

* Modelled: `changelist.select`, `selectattrs`, `checkattrs`, `refineattrs`. (`pyx/attr.py`)
* Proof: Arithmetic of remainders, induction.
* Theorems: `Attr.select_cyclic`, `Attr.select_period`, `Attr.select_noncyclic`, `Attr.selectattrs_eq`, `Attr.checkattrs_eq`, `Attr.refine_none`, `Attr.refine_allowed`

### C11 Tick fractions are exact and ordered (partial)

* Modelled: `rational`: string parser on characters, products, quotients, powers, comparison. (`pyx/graph/axis/tick.py`)
* Left out: Non-ASCII digits, infinite floats and NaN; `%.10g` of C is modelled from its definition.
* Proof: The value function to ℚ commutes with each operation; the text of `%g` denotes the rounded number (`formatG_val`).
* Code against the claim: Comparison is wrong for negative denominators; zero to a negative power is not rejected; integers of more than ten digits are rounded (`integer_changed`).
* Status: All decimal/fraction strings (character-level), floats, products, quotients, powers; comparison correct for positive denominators. compare_neg_wrong/power_zero_wrong: the code accepts negative denominators and zero to a negative power; integer_changed: integers of more than ten digits are rounded.
* Theorems: `Tick.initfromstring_val`, `Tick.ofString_dec`, `Tick.ofString_frac`, `Tick.ofString_zero`, `Tick.compare_val`, `Tick.mul_val`, `Tick.div_val`, `Tick.power_val`, `Tick.compare_neg_wrong`, `Tick.power_zero_wrong`, `Tick.ofNumber_near`, `Tick.ofNumber_recovers`, `Tick.ofNumber_zero`, `Tick.formatG_val`, `Tick.ex_tenth`, `Tick.ex_layout`, `Tick.integer_changed`

### C12 Merging tick lists is a sorted union (proved)

* Modelled: `mergeticklists`, `tick.merge`, `maxlevels`. (`pyx/graph/axis/tick.py`)
* Left out: Sharing of tick objects.
* Proof: Specification by the level at each position; induction over both lists.
* Code against the claim: Duplicates in an unsorted second list are kept.
* Status: Default mode for all sorted lists with positive denominators; merge_duplicates shows that sortedness of list2 is needed.
* Theorems: `Tick.merge_sorted`, `Tick.merge_level`, `Tick.merge_good`, `Tick.merge_label`, `Tick.levelAt_sorted`, `Tick.maxlevels_spec`, `Tick.merge_duplicates`

### C13 Linear ticks are exactly the multiples of the tick distance in range (proved)

* Modelled: `linear.partfunction`, `getticks`, `extendminmax`. (`pyx/graph/axis/parter.py`)
* Proof: Floor and ceiling arithmetic; membership is an equivalence.
* Status: Over any ordered field with floor; whole partfunction with several distances, levels included. Tolerance is the epsilon of the code.
* Theorems: `Parter.getticks_mem`, `Parter.getticks_sorted`, `Parter.extend_nearest`, `Parter.extend_bounds`, `Parter.part_mem`, `Parter.part_level`

### C14 Automatic tick search walks monotonically through tick distances (proved)

* Modelled: Generator state of `autolinear`, initial guess. (`pyx/graph/axis/parter.py`)
* Proof: State invariant along all walks of `less` and `more`.
* Status: All steps, any variants within one decade; initial guess over the reals.
* Theorems: `Parter.walks_monotone`, `Parter.walks_disjoint`, `Parter.walks_form`, `Parter.less_run`, `Parter.more_run`, `Parter.dists_first`, `Parter.default_decade`, `Parter.autoBase_spec`

### C15 Automatic axis range is the exact data range whatever the order of data (proved)

* Modelled: `_regularaxis.adjustaxis`, `createdata`. (`pyx/graph/axis/axis.py`)
* Proof: Induction over all histories of adjustments; hull of the set of values.
* Status: the axis range is the hull of all adjusted values, whatever the order of the adjustments
* Theorems: `Axis.history_range`, `Axis.history_congr`, `Axis.history_perm`, `Axis.init_ordered`

### C16 Axis conversion maps the range onto the graph unit interval monotonically (proved)

* Modelled: `linear.convert`, `logarithmic.convert`, the range of constant data (`axis.py:123-132`). (`pyx/graph/axis/axis.py`)
* Proof: Field arithmetic and monotonicity of the logarithm.
* Code against the claim: Constant data are in the middle of the axis for a width to fall back on (`range_centered`), and may be outside for given ends (`range_ends_outside`).
* Status: linear over any ordered field, logarithmic over the reals
* Theorems: `Axis.convert_bounds`, `Axis.convert_mono`, `Axis.convert_affine`, `Axis.convert_mem`, `Axis.logConvert_eq`, `Axis.log_bounds`, `Axis.log_mono`, `Axis.log_ratio`, `Axis.range_iff`, `Axis.range_kept`, `Axis.range_centered`, `Axis.range_ends`, `Axis.range_ends_outside`

### C17 Bars of a bar axis tile the axis (proved)

* Modelled: `bar` axis: sub axes, `create`, `convert`. (`pyx/graph/axis/axis.py`)
* Proof: Induction over the list of names; tiles are adjacent and fill the interval.
* Status: sub axes of a bar axis tile the unit interval
* Theorems: `Axis.barAdjust_ok`, `Axis.create_tiles`, `Axis.create_spec`, `Axis.Tiles.spec`, `Axis.barConvert_mem`

### C18 Decimal tick labels print the exact tick value (partial)

* Modelled: `decimal.labels` on digit lists. (`pyx/graph/axis/texter.py`)
* Left out: Label attributes.
* Proof: Invariant of the long division loop; fuel is shown to suffice.
* Code against the claim: A separator between the digits after the point misplaces the period; padding inserts separators.
* Status: exact without separator between the digits after the point; with one the period is misplaced (period_misplaced), so the full claim is false of the code
* Theorems: `Texter.decLoop_spec`, `Texter.rawLabel_spec`, `Texter.decimal_exact`, `Texter.equalprecision_spec`, `Texter.decimal_default`, `Texter.store_spec`, `Texter.intPart_filter`, `Texter.period_misplaced`, `Texter.padding_separators`

### C19 Fraction tick labels denote the tick value in lowest terms (partial)

* Modelled: `rational.labels`, `gcd`. (`pyx/graph/axis/texter.py`)
* Left out: Decorated numerators and denominators in the text shape.
* Proof: gcd arithmetic.
* Code against the claim: With `equaldenom`, a tick without label makes labelling fail.
* Status: text shape proved for undecorated numerators and denominators; with equaldenom a sub-tick makes labelling fail (equaldenom_subtick)
* Theorems: `Texter.gcd_eq`, `Texter.reduce_spec`, `Texter.shown_spec`, `Texter.rationalText_spec`, `Texter.rational_default`, `Texter.equaldenom_subtick`

### C20 Type 1 encryption and decryption are mutually inverse (partial)

* Modelled: `t1code.py` encoder and decoder, eexec, charstring encryption. (`pyx/font/_t1code.c`, `pyx/font/t1code.py`)
* Left out: `_t1code.c` is a second implementation of the same functions and is not modelled.
* Proof: Induction over bytes; the key recurrence modulo 2^16.
* Code against the claim: The round trip holds exactly for `lenIV <= 4`.
* Status: Charstring encryption round-trips exactly when lenIV <= 4 (the code always prepends at most four bytes), proved as an equivalence.
* Theorems: `T1.nextKey_eq`, `T1.decoder_encoder`, `T1.encoder_decoder`, `T1.encoder_length`, `T1.encoder_bytes`, `T1.eexec_roundtrip`, `T1.charstring_roundtrip_iff`

### C21 Type 1 charstring coding round-trips (partial)

* Modelled: `_cmds`, `_code`. (`pyx/font/t1file.py`)
* Proof: Case analysis of the number ranges, induction over the charstring.
* Code against the claim: -2^31 decodes to +2^31.
* Status: Holds for all integers except -2^31, which decodes to +2^31 (charstring_roundtrip_false).
* Theorems: `T1.charstring_roundtrip_partial`, `T1.charstring_roundtrip_false`, `T1.code_overflow`, `T1.setGet_roundtrip_partial`

### C22 ASCII85 stream output is decodable to the original data (partial)

* Modelled: `ascii85stream`, `ascii85lines`. (`pyx/bitmap.py`)
* Proof: Base 85 arithmetic; a separate decoder written after the PLRM.
* Code against the claim: The number of lines announced for images written in chunks is wrong.
* Status: Round trip, legality and the single string line count are proved for all data; the line count announced for chunked images is wrong (lines_chunked_wrong).
* Theorems: `Ascii85.ascii85_roundtrip`, `Ascii85.ascii85_legal`, `Ascii85.lines_single`, `Ascii85.lines_chunked_actual`, `Ascii85.lines_chunked_partial`, `Ascii85.lines_chunked_wrong`

### C23 Big-endian reader integers are exact (partial)

* Modelled: The binary reader on byte lists. (`pyx/reader.py`)
* Proof: Base 256 arithmetic against writers put/putS.
* Code against the claim: `readint24` never gives a negative number.
* Status: All readers proved except readint24, which is wrong for negative numbers (readint24_wrong).
* Theorems: `Reader.readU_put`, `Reader.readS_putS`, `Reader.readint_put`, `Reader.readint_putS`, `Reader.readint_eq`, `Reader.readU_short`, `Reader.readstring_field`, `Reader.readint24_nonneg_partial`, `Reader.readint24_wrong`

### C24 PFB container round-trips (partial)

* Modelled: `from_PFB_bytes`, `outputPFB`. (`pyx/font/t1file.py`)
* Proof: Soundness and completeness against the segment format.
* Code against the claim: `outputPFB` always raises an exception.
* Status: Reading is proved sound and complete for the format; writing in PFB form never succeeds (outputPFB_fails).
* Theorems: `Pfb.fromPFB_complete`, `Pfb.fromPFB_sound`, `Pfb.sencode_sdecode`, `Pfb.outputPFB_fails`, `Pfb.outputPFB_not_roundtrip`

### C25 TFM character info words are unpacked to the right byte fields (proved)

* Modelled: `char_info_word`. (`pyx/dvi/tfmfile.py`)
* Proof: Bit arithmetic for all words.
* Theorems: `Tfm.charInfo_fields`

### C26 TFM lengths scale to DVI units exactly as TeX does (proved)

* Modelled: `_convert_tfm_to_dvi`. (`pyx/dvi/texfont.py`)
* Left out: The float `int(round(q*tfmconv))` giving z.
* Proof: Compared with the algorithm of TeX (section 571).
* Status: z is taken as given; the float rounding int(round(q*tfmconv)) is not modelled.
* Theorems: `Tfm.convert_eq_tex`, `Tfm.convert_rejects`

### C27 Virtual font files parse to the packets they contain (partial)

* Modelled: `vffile` parser. (`pyx/dvi/vffile.py`)
* Left out: Loading of the fonts referred to.
* Proof: A file is any sequence of commands; the parser returns exactly its definitions.
* Code against the claim: Long packets read a three byte width instead of four.
* Status: Proved for files without long packets; long packets are misread (parse_long_wrong).
* Theorems: `Vf.parse_file_partial`, `Vf.parse_long_wrong`, `Vf.getchar_last`, `Vf.getchar_none`, `Vf.long_packet`

### C28 DVI pages place every glyph and rule where the DVI semantics puts it (partial)

* Modelled: `DVIfile.readpage`, `flushtext`, `putchar`, virtual fonts. (`pyx/dvi/dvifile.py`)
* Left out: Debug output; fonts are a table; the effect of specials is C154.
* Proof: Refinement: simulation of the abstract DVI machine of the standard, with text collected in the code.
* Code against the claim: Rules in virtual fonts advance by the doubly scaled width; registers are inherited by packets; font number 0 is assumed.
* Status: Proved for all pages without nop whose virtual fonts (any nesting) define number 0 first, advance no rule with scale /= 1 and set registers before use; unrestricted for pages without virtual fonts. Negation of the full claim proved with witnesses.
* Theorems: `Dvi.readpage_refines_partial`, `Dvi.readpage_refines_novirt`, `Dvi.spage_restrict`, `Dvi.readpageBytes_partial`, `Dvi.vf_setRule_wrong`, `Dvi.vf_register_wrong`, `Dvi.vf_first_wrong`, `Dvi.dvi_not_correct`

### C29 Every legal DVI command is accepted (partial)

* Modelled: Command decoder on bytes. (`pyx/dvi/dvifile.py`)
* Proof: Every encoding of every command decodes to it.
* Code against the claim: NOP on a page raises `DVIError`; non-ASCII specials raise.
* Status: Every encoding of every command is decoded exactly; pages without nop/non-ASCII specials are accepted. nop on a page raises DVIError (negation proved).
* Theorems: `Dvi.decode_encodes`, `Dvi.decodePage_encodes`, `Dvi.decodeAll_encodes`, `Dvi.readpageBytes_partial`, `Dvi.nop_rejected`, `Dvi.special_nonascii_rejected`, `Dvi.all_accepted_fails`

### C30 PDF cross-reference table points at the objects (proved)

* Modelled: `PDFregistry` for arbitrary objects. (`pyx/pdfwriter.py`)
* Left out: The text of single objects is a parameter.
* Proof: Invariant of the registry; offsets by induction over the objects written.
* Status: files below 10^10 bytes (the width of a table entry)
* Theorems: `Pdf.registered_spec`, `Pdf.getrefno_spec`, `Pdf.writeObjs_spec`, `Pdf.write_spec`, `Pdf.refs_resolve`, `Pdf.write_total`

### C31 PDF literal strings survive quoting (proved)

* Modelled: Quoting in `PDFinfo.write`. (`pyx/pdfwriter.py`)
* Proof: Separate reader of PDF literal strings; induction.
* Code against the claim: Characters above 255 are lost (outside the claim).
* Status: for byte-range characters as stated; pdfstring_large shows that others are lost
* Theorems: `Pdf.pdfstring_roundtrip`, `Pdf.pdfstring_large`

### C32 PDF creation date carries the correct UTC offset (partial)

* Modelled: Time zone suffix. (`pyx/pdfwriter.py`)
* Left out: Daylight saving, `time.timezone` is a number.
* Proof: Separate reader of the suffix.
* Code against the claim: The sign is inverted for every zone but UTC.
* Status: the claim is false: the sign is inverted for every zone but UTC (timezone_wrong)
* Theorems: `Pdf.timezone_read`, `Pdf.timezone_wrong`, `Pdf.timezone_partial`

### C33 Graphics state saves and restores are balanced and text sections well formed (partial)

* Modelled: Canvas trees: `canvas.processPS/PDF`, `decoratedpath`, styles, text. (`pyx/canvas.py`)
* Left out: Registry, SVG (C120), bitmaps, meshes, EPS files.
* Proof: Structural induction against interpreters of the two languages.
* Code against the claim: Text sections broken by `textaspath` with fonts without file; PDF path objects interrupted; pattern error.
* Status: Saves/restores balanced and graphics state restored proved for every tree (PS, PDF). Text sections well formed for every tree unless textaspath is combined with fonts without font file, where the code is wrong (pdf_text_outside).
* Theorems: `Canvas.ps_state_restored`, `Canvas.pdf_state_restored`, `Canvas.pdf_text_sections_partial`, `Canvas.pdf_text_outside`, `Canvas.pdf_path_object`, `Canvas.pdf_pattern_error`

### C34 Nested canvases place their content by the composed transformation and clip (partial)

* Modelled: As C33, with clipping, transformation, boxes. (`pyx/canvas.py`)
* Left out: As C33.
* Proof: The stream makes exactly the marks of the picture of the tree.
* Code against the claim: Fill rules of `deco.filled` are ignored; stale fonts in PostScript; PDF form field styles leak.
* Status: The streams make exactly the marks of the picture of the tree (composed transformation, clips, style), for all trees outside the cases refuted by the negation theorems; the boxes contain everything painted.
* Theorems: `Canvas.ps_picture_partial`, `Canvas.ps_fillrule_ignored`, `Canvas.ps_wrong_font`, `Canvas.pdf_picture_partial`, `Canvas.pdf_fillrule_ignored`, `Canvas.pdf_field_styles_leak`, `Canvas.build_attr`, `Canvas.build_isSome`, `Canvas.bbox_contains`, `Canvas.output_bbox_contains`, `Canvas.bbox_nested`

### C35 Layers keep the order asked for (partial)

* Modelled: `canvas.layer`. (`pyx/canvas.py`)
* Proof: Lists and dictionaries of layers; all histories of calls.
* Code against the claim: A failing call loses or hides a layer.
* Status: All of the claim for successful calls and all histories of them; 'a failing call leaves the canvas unchanged' is false (failing_call_loses_layer).
* Theorems: `Layer.layer_placed`, `Layer.layer_frame`, `Layer.layer_content`, `Layer.layer_ancestors`, `Layer.layer_good`, `Layer.made_good`, `Layer.layer_ok_iff`, `Layer.failing_call_loses_layer`, `Layer.above_itself_loses_layer`, `Layer.failing_call_hides_layer`, `Layer.failing_unchanged_partial`

### C36 A page places its content centred and fitted within the margins (partial)

* Modelled: `page._process`. (`pyx/document.py`)
* Left out: Warnings.
* Proof: Field arithmetic.
* Code against the claim: Content without width or height raises ZeroDivisionError.
* Status: Proved for all boxes of positive size; fitting content without width or height raises ZeroDivisionError (flat_content_fails).
* Theorems: `Page.centred`, `Page.fitted`, `Page.margins_rejected`, `Page.not_placed`, `Page.contentBox_contains`, `Page.flat_content_fails`, `Page.rotate_quarter`

### C37 Colour conversions stay in the legal range and invert where they should (proved)

* Modelled: Colour constructors and conversions. (`pyx/color.py`)
* Left out: Output of colours (see C33).
* Proof: Ordered-field arithmetic.
* Code against the claim: CMYK to RGB and back is not the identity (by design, outside the claim).
* Status: Also for HSB and for all device functions with legal black generation; the round trip of RGB through CMYK is for the default device functions.
* Theorems: `Color.gray_legal`, `Color.rgb_legal`, `Color.hsb_legal`, `Color.cmyk_legal`, `Color.gray_roundtrip`, `Color.rgb_cmyk_roundtrip`, `Color.cmyk_rgb_roundtrip`, `Color.rgb_hsb_roundtrip`, `Color.constructors_reject`, `Color.mkGray_iff`, `Color.mkRgb_iff`, `Color.mkHsb_iff`, `Color.mkCmyk_iff`, `Color.cmyk_rgb_not_identity`

### C38 Hex colour strings round-trip at 8 bit (proved)

* Modelled: `tohexstring`, `rgbfromhexstring`. (`pyx/color.py`)
* Left out: Float rounding.
* Proof: Digit arithmetic.
* Status: Exact arithmetic.
* Theorems: `Color.hex_close`, `Color.hex_exact`, `Color.hex_string`

### C39 Gradients give legal colours on the whole parameter range (proved)

* Modelled: Gradient classes and all built-in gradients. (`pyx/color.py`)
* Proof: Piecewise arithmetic.
* Status: All built-in gradients.
* Theorems: `Color.linGray_legal`, `Color.linRgb_legal`, `Color.linHsb_legal`, `Color.linCmyk_legal`, `Color.lin_ends`, `Color.jet_legal`, `Color.hue_legal`, `Color.blackYellow_legal`, `Color.select_param`

### C40 Splitting a Bezier curve at parameters reparametrises it exactly (proved)

* Modelled: `normline_pt`, `normcurve_pt`: `_split`, `segments`, `at_pt`. (`pyx/normpath.py`)
* Proof: Polynomial identities, induction over parameter lists.
* Status: lines and Bezier curves over any field of characteristic 0; parameter lists of any length and order
* Theorems: `NormPath.at_eq_point`, `NormPath.split_traces`, `NormPath.segments_traces`, `NormPath.segments_connected`, `NormPath.segments_isSome`

### C41 Curve bounding boxes contain the curve and are tight (proved)

* Modelled: `_bezierpolyrange`, `cbox`, `bbox`. (`pyx/normpath.py`, `pyx/path.py`)
* Proof: Real analysis: extrema of cubics.
* Status: over the reals; exact square roots
* Theorems: `NormPath.bezierpolyrange_spec`, `NormPath.bbox_tight`, `NormPath.cbox_contains`

### C42 Transforming a path item commutes with evaluating it (proved)

* Modelled: `transformed`, `reversed`, tangents, curvature. (`pyx/normpath.py`)
* Proof: Polynomial identities and derivatives.
* Status: items; exact arithmetic
* Theorems: `NormPath.transformed_at`, `NormPath.transformed_ends`, `NormPath.transformed_mul`, `NormPath.reversed_at`, `NormPath.reversed_reversed`, `NormPath.tangent_deriv`, `NormPath.rotation_tangent`, `NormPath.curvature_reversed`, `NormPath.curvature_similar`, `NormPath.xy_eq`

### C43 Line intersections are sound and complete (partial)

* Modelled: `normline_pt.intersect`. (`pyx/normpath.py`)
* Proof: Linear algebra with tolerances.
* Code against the claim: The middle of a short first line is computed wrongly (line 228).
* Status: sound within epsilon and complete (exact for lines that are not almost parallel), except that the first line is shorter than epsilon and almost parallel: line 228 computes its middle wrongly (short_self_wrong)
* Theorems: `NormPath.intersect_sound_partial`, `NormPath.intersect_complete`, `NormPath.intersect_nonempty_partial`, `NormPath.intersect_length`, `NormPath.short_self_wrong`

### C44 Normalised sub-paths stay connected (partial)

* Modelled: `normsubpath`: append, extend, join, close, segments, transformed, reversed. (`pyx/normpath.py`)
* Left out: Roots of curvature polynomial are a parameter.
* Proof: Invariant over all histories of operations.
* Code against the claim: A closed sub-path without epsilon accepts items; splitting a closed sub-path ends at a wrong point.
* Status: connectivity over all operation histories; the claim fails for two cases proved as counterexamples: appending to closed sub-paths without epsilon, and splitting closed sub-paths whose last segment is shorter than epsilon
* Theorems: `NormPath.Sub.reach_inv`, `NormPath.Sub.connected`, `NormPath.Sub.nearly_connected`, `NormPath.Sub.auto_epsilon`, `NormPath.Sub.closed_rejects`, `NormPath.Sub.closed_accepts_without_epsilon`, `NormPath.Sub.closed_split_wrong_end`

### C45 Splitting a path and joining the pieces restores the path (proved)

* Modelled: `normsubpath.segments`, `normpath._split_pt`. (`pyx/normpath.py`)
* Proof: Pieces follow the original from one parameter to the next, backwards if the next one is before (`split_stretches`).
* Status: pieces are built from parts following the original; exact point sets for epsilon None (with an epsilon, parts shorter than epsilon are dropped by append); parameters in any order, going back through a path reverses it
* Theorems: `NormPath.split_stretches`, `NormPath.split_none`, `NormPath.split_closed`, `NormPath.Sub.segmentsOpen_pieces`, `NormPath.Sub.segmentsOpen_none`, `NormPath.Sub.Piece.ends`, `NormPath.Sub.Piece.points`, `NormPath.Sub.Piece.way`, `NormPath.Sub.Piece.way_plain`, `NormPath.Sub.Way.sound_up`, `NormPath.Sub.Way.covers`

### C46 Arc length and parameter are mutually inverse on straight paths (proved)

* Modelled: `_arclentoparam_pt`, `_paramtoarclen_pt` on lines. (`pyx/normpath.py`)
* Left out: Curves (C73).
* Proof: Induction over the segments.
* Status: lines of positive length; at the end of a sub-path arclentoparam gives the begin of the next sub-path; length is the variation in the plane as in C73
* Theorems: `NormPath.toArclen_toParam`, `NormPath.toParam_toArclen`, `NormPath.toArclen_ends`, `NormPath.way_length`, `NormPath.piece_length`, `NormPath.split_lengths`, `NormPath.pathToArclen_pathToParam`, `NormPath.pathToParam_pathToArclen`

### C47 PostScript and PDF output of a path draw the same line (partial)

* Modelled: `path` items, `outputPS`, `outputPDF`. (`pyx/normpath.py`, `pyx/path.py`)
* Left out: Number formatting.
* Proof: Simulation between two operator machines.
* Code against the claim: A line after closepath is lost in PDF; closing an empty sub-path raises.
* Status: PDF operators draw the figures of the PostScript operators for all paths where only a moveto or arc follows a closepath, no empty sub-path is closed and no arct occurs; otherwise the claim is false: witnesses pdf_line_after_close (line lost) and pdf_close_raises (exception)
* Theorems: `Path.pdf_eq_ps_partial`, `Path.pdf_line_after_close`, `Path.pdf_close_raises`

### C48 Relative path operators equal their absolute counterparts (partial)

* Modelled: Relative items in all four uses. (`pyx/path.py`)
* Proof: Simulation relative/absolute.
* Code against the claim: SVG `arct` after closepath or arc uses a wrong current point.
* Status: bounding box, normpath, PDF and PostScript output proved for all paths; SVG for paths without arct; with arct after closepath or arc the SVG output uses a wrong current point (svg_arct_wrong)
* Theorems: `Path.absPath_absolute`, `Path.bbox_absolute`, `Path.normpath_absolute`, `Path.pdf_absolute`, `Path.ps_absolute`, `Path.context_follows_ps`, `Path.svg_absolute_partial`, `Path.svg_arct_wrong`

### C49 Arc bounding boxes contain the arc (partial)

* Modelled: `_arcbboxdata`. (`pyx/path.py`)
* Proof: Trigonometry, tightness.
* Code against the claim: Wrong for negative radii.
* Status: proved for radii >= 0 (smallest box); false for negative radii, which the code accepts (arcbbox_negative_radius)
* Theorems: `Path.arcbbox_tight`, `Path.arc_ends`, `Path.arcbbox_negative_radius`

### C50 Excluding ranges from a decorated path removes exactly those ranges (proved)

* Modelled: `excluderange`, `strokepath`. (`pyx/deco.py`)
* Proof: Interval lists as sets.
* Status: The ranges are an ordered-field parameter; overlapping requests and the closed path are covered.
* Theorems: `Deco.excluderange_sorted`, `Deco.excluderange_covered`, `Deco.excluderanges`, `Deco.gaps_complement`, `Deco.strokepath_gaps`, `Deco.strokepath_closed`

### C51 Connector geometry meets its end points and arguments (partial)

* Modelled: Arc, curve and two-lines connectors. (`pyx/connector.py`)
* Left out: `omitends`, `shortenpath`.
* Proof: Plane geometry over the reals.
* Code against the claim: Three constructions do not meet their arguments, see MANIFEST.
* Status: All connector curves before omitends/shortenpath over the reals. Fails in the code: two angles whose lines meet behind the first center (twolines_angles_wrong), angle and opposite length that cannot be met (twolines_opposite_wrong), default curve is not similar to the default arc (curve_default_wrong). Cutting by the boxes is not modelled.
* Theorems: `Connector.arc_bulge`, `Connector.arc_angle`, `Connector.arc_straight`, `Connector.curve_spec`, `Connector.curve_opposite`, `Connector.curve_default_wrong`, `Connector.twolines_lengths`, `Connector.twolines_direction1`, `Connector.twolines_direction2_partial`, `Connector.twolines_middle_partial`, `Connector.twolines_two_lengths`, `Connector.twolines_angles_partial`, `Connector.twolines_count`, `Connector.twolines_angles_wrong`, `Connector.twolines_opposite_wrong`

### C52 Box distance and alignment are exact (partial)

* Modelled: `polygon_pt` alignments, extents, distances. (`pyx/box.py`)
* Left out: `path(centerradius)`.
* Proof: Convex geometry.
* Code against the claim: Sides almost parallel to the direction are skipped; a box inside another is not noticed.
* Status: Exact for sides that are not almost parallel/perpendicular to the direction within the absolute tolerances of the code and not shorter than 1e-5; positive radius for circlealign. Without this the claim is false: linealign_wrong (alignment wrong by the size of the box). contained_not_raised: BoxCrossError is not raised for a box inside another.
* Theorems: `Box.linealign_partial`, `Box.extent_partial`, `Box.circlealign_partial`, `Box.pointdistance_partial`, `Box.boxdistance_partial`, `Box.line_den_ne`, `Box.circle_den_ne`, `Box.mem_edges`, `Box.rect_convex`, `Box.linealign_wrong`, `Box.contained_not_raised`

### C53 24-bit mesh coordinates are accurate to one step (proved)

* Modelled: Mesh coordinates and data stream. (`pyx/mesh.py`)
* Proof: Floor arithmetic.
* Code against the claim: Empty ranges divide by zero.
* Status: Exact arithmetic instead of floats; an empty range is a division by zero (coords24_empty).
* Theorems: `Mesh.coords24_spec`, `Mesh.coords24_empty`, `Mesh.bbox_contains`, `Mesh.mesh_data`

### C54 Keyword splitting loses and duplicates nothing (proved)

* Modelled: `kwsplit`. (`pyx/utils.py`)
* Proof: Association lists.
* Status: Dictionaries are association lists with distinct keys.
* Theorems: `Util.kwsplit_spec`, `Util.kwsplit_raises`

### C55 Resource files are found in the configured order (partial)

* Modelled: All locators, `open`. (`pyx/config.py`)
* Left out: `locate` (NameError), log messages.
* Proof: A world (file system, tools) as parameter; all histories for the recursive directory cache.
* Code against the claim: Five refuted parts, see MANIFEST.
* Status: Order of locators, name variants, internal data, kpsewhich, recursive directories (all histories) and ls-R proved. Refuted: local lookups open only the last variant (late binding of the loop variable, line 89); the same request can give another file later (recursivedir cache overwritten); a missing ls-R file hides the other locators; a removed kpsewhich file gives None instead of IOError; extension .pro never tried. Not modelled: locate (NameError).
* Theorems: `Config.names_spec`, `Config.pro_never_tried`, `Config.open_first`, `Config.open_found`, `Config.internal_serves`, `Config.tool_serves`, `Config.tool_nothing`, `Config.local_serves`, `Config.local_serves_partial`, `Config.local_wrong`, `Config.local_wrong_order`, `Config.recursivedir_spec`, `Config.recursivedir_order`, `Config.repeated_request_differs`, `Config.lsr_entry`, `Config.lsr_serves`, `Config.missing_lsr_hides`, `Config.open_again`, `Config.removed_gives_none`, `Config.extension_last`, `Config.extension_none`, `Config.extension_dir`

### C56 Last font map entry wins (partial)

* Modelled: `readfontmap`, `MAPline`. (`pyx/dvi/mapfile.py`)
* Left out: Parsing of numbers is a parameter.
* Proof: Characters and tokens; last entry by induction.
* Code against the claim: A bad number aborts everything; `< foo.pfb` is taken as an encoding.
* Status: Proved: last entry wins, lines raising ParseError are ignored, tokenisation and meaning of each token, PostScript fragments. Refuted parts: a SlantFont with a non-number raises an uncaught ValueError and aborts reading of everything (malformed_not_ignored); '< foo.pfb' with a blank is taken as an encoding (separate_font_file_wrong). Parsing of the number is a parameter.
* Theorems: `MapFile.last_entry_wins`, `MapFile.bad_number_fails`, `MapFile.malformed_ignored`, `MapFile.tokens_line`, `MapFile.line_meaning`, `MapFile.fragments`, `MapFile.bad_number`, `MapFile.malformed_not_ignored`, `MapFile.separate_font_file_wrong`, `MapFile.comment_ignored`, `MapFile.blank_ignored`, `MapFile.other_defines`

### C57 Joined data keep every row and pad with missing values (proved)

* Modelled: `join.merge_dicts`. (`pyx/graph/data.py`)
* Proof: Association lists.
* Status: Also shows that the None placeholder (data.py:617) is never used.
* Theorems: `Data.join_spec`, `Data.join_rows`

### C58 File data rows follow skiphead, every and skiptail (partial)

* Modelled: Row selection of `data.file`. (`pyx/graph/data.py`)
* Proof: Arithmetic of selected lines.
* Code against the claim: `skiptail` with `every` drops too few rows.
* Status: False as documented: with every > 1, skiptail // every rows are dropped, which may keep one row of the last skiptail lines (skiptail_false). Exact if every divides skiptail; at most one row more otherwise.
* Theorems: `Data.readLines_spec`, `Data.file_partial`, `Data.skiptail_partial`, `Data.skiptail_exact_partial`, `Data.skiptail_false`

### C59 Config-file data accept sections with new options (partial)

* Modelled: `conffile.__init__`. (`pyx/graph/data.py`)
* Left out: Conversion of values to floats.
* Proof: Induction over sections.
* Code against the claim: An option missing in the first section makes reading fail.
* Status: False: an option that the first section lacks makes reading fail. Proved for files whose first section has all options.
* Theorems: `Data.conffile_partial`, `Data.conffile_new_option_partial`, `Data.conffile_false`

### C60 Stripped fonts render like the full font (proved)

* Modelled: `gathercalls`, `getdata2`, `getstrippedfont`. (`pyx/font/t1file.py`)
* Left out: Text around the arrays.
* Proof: Simulation of a separate Type 1 stack machine.
* Code against the claim: Nested `div` raises (515).
* Status: Specification is a separate Type 1 stack machine with arbitrary OtherSubrs results; charstrings are those the machine executes with return/endchar last and divisors written in the charstring (nested_div_fails shows the last restriction is needed). The text around the Subrs and CharStrings arrays and the UniqueID removal are not modelled.
* Theorems: `T1.stripped_draws`, `T1.strip_total`, `T1.stripped_encoding`, `T1.stripped_glyphs`, `T1.stripped_subrs`, `T1.flex_all_or_none`, `T1.stripped_minimal`, `T1.nested_div_fails`

### C61 MetaPost-like paths are smooth at smooth knots (partial)

* Modelled: `mp_solve_choices` (elimination, cycles, curls, given directions), `mp_set_controls`, `mp_velocity`, `reduce_angle`, turning angles. (`pyx/metapost/mp_path.py`, `pyx/metapost/path.py`)
* Left out: Floats are real numbers.
* Proof: Elimination step as an equivalence, so that existence and uniqueness follow; row sums below 1 give nonzero pivots; tangents as complex numbers.
* Code against the claim: A curve against its chord at both ends is a division by zero.
* Status: Full for the linear system of any size (existence, uniqueness, no division by zero), for the tangents at the knots of a run and for those of the segments drawn by a path, closed or not (smooth_knots, leaves_given, arrives_given). Partial because reversed_fails shows a division by zero in mp_velocity when a curve leaves and arrives against its chord; paths that end with a line are left out, see C92.
* Theorems: `MetaPost.angles_smooth`, `MetaPost.angles_unique`, `MetaPost.divisors_ne_zero`, `MetaPost.run_smooth`, `MetaPost.tangent_continuous`, `MetaPost.smooth_knots`, `MetaPost.leaves_given`, `MetaPost.arrives_given`, `MetaPost.first_direction`, `MetaPost.last_direction`, `MetaPost.segment_defined`, `MetaPost.atleast_inside`, `MetaPost.velocity_pos`, `MetaPost.curls_straight`, `MetaPost.drawn_unique`, `MetaPost.reversed_fails`, `MetaPost.leaves_angle`, `MetaPost.arrives_angle`

### C62 Polynomial roots returned are roots and none is missed (partial)

* Modelled: Quadratic, cubic, quartic real roots. (`pyx/mathutils.py`)
* Left out: Exact discriminants.
* Proof: Algebra (Cardano, Ferrari).
* Code against the claim: Wrong sign in one cubic case (80-82).
* Status: False for cubics with zero discriminant and R > 0 (mathutils.py:80-82 has the wrong sign): cubic_false, quartic_false. Proved in all other cases.
* Theorems: `Roots.quadratic_roots`, `Roots.cubic_roots_partial`, `Roots.cubic_wrong`, `Roots.cubic_false`, `Roots.quartic_roots_partial`, `Roots.quartic_false`, `Roots.realpolyroots_partial`, `Roots.realpolyroots_quadratic`

### C63 Interleaved image data split and merge losslessly (proved)

* Modelled: `image.split`, `imagedata`. (`pyx/bitmap.py`)
* Left out: PIL images.
* Proof: List induction.
* Theorems: `Bitmap.split_get`, `Bitmap.interleave_split`, `Bitmap.imagedata_separate`, `Bitmap.imagedata_interleaved`

### C64 PostScript bounding boxes written never cut the drawing (proved)

* Modelled: `lowrestuple_pt`. (`pyx/bbox.py`)
* Proof: Floor and ceiling.
* Theorems: `BBox.lowres_least`, `BBox.lowres_empty`

### C65 PFA hexadecimal section encodes exactly the encrypted data (proved)

* Modelled: Hex section of `outputPFA`. (`pyx/font/t1file.py`)
* Proof: Induction over lines.
* Status: Concatenation of the hex lines decodes to the data for all data.
* Theorems: `Pfb.pfaBody_roundtrip`, `Pfb.pfaBody_lines`, `Pfb.hexLines_line`

### C66 Logarithmic ticks are exactly the scaled powers in range (proved)

* Modelled: `logarithmic.getticks`. (`pyx/graph/axis/parter.py`)
* Proof: Real logarithm, floor arithmetic.
* Status: Real logarithm instead of floats.
* Theorems: `Parter.logTicks_spec`, `Parter.log_part_spec`

### C67 Logarithmic axis ranges are extended to the nearest enclosing tick (partial)

* Modelled: `logarithmic.extendminmax`. (`pyx/graph/axis/parter.py`)
* Proof: As C66.
* Code against the claim: For negative ranges the flags are exchanged.
* Status: Proved for positive ranges. For negative ranges the code exchanges the flags (negative_flags_swapped); logExtend_negative describes what happens.
* Theorems: `Parter.logExtend_spec_partial`, `Parter.logExtend_negative`, `Parter.negative_flags_swapped`

### C68 Ratings of partitions (proved)

* Modelled: `rater.py`. (`pyx/graph/axis/rater.py`)
* Proof: Real arithmetic.
* Theorems: `Axis.cube_spec`, `Axis.cube_mono`, `Axis.distRate_spec`, `Axis.countLevels_spec`, `Axis.rateticks_nonneg`

### C69 The best partition is chosen (partial)

* Modelled: Choice of the partition in `_create`. (`pyx/graph/axis/axis.py`)
* Left out: Layout of labels is a parameter.
* Proof: Loop relation; minimal rating.
* Code against the claim: An empty canvas makes the loop run forever.
* Status: holds if no laid-out canvas is empty (choose_forever: a painter drawing nothing makes the loop run forever) and layout ratings are not negative
* Theorems: `Axis.choose_best`, `Axis.choose_forever`, `Axis.search_spec`

### C70 Rotated labels are never upside down (proved)

* Modelled: `rotatetext`. (`pyx/graph/axis/painter.py`)
* Proof: Angle arithmetic.
* Theorems: `Axis.whileSub_spec`, `Axis.whileAdd_spec`, `Axis.rotateText_spec`

### C71 Exponential tick labels denote the tick value (partial)

* Modelled: `default.labels`. (`pyx/graph/axis/texter.py`)
* Proof: Loops as relations; value of the text.
* Code against the claim: Sign lost for negative denominators.
* Status: for ticks with positive denominator; for a negative denominator the sign is lost (analyse_neg_denom)
* Theorems: `Texter.analyse_spec`, `Texter.analyse_neg_denom`, `Texter.decimal_map`, `Texter.default_exact`, `Texter.uniform_spec`, `Texter.want_spec`

### C72 A PDF page lists the annotations placed on it (partial)

* Modelled: `PDFannotations`, `mergeregistry`. (`pyx/pdfwriter.py`)
* Proof: Registry invariant.
* Code against the claim: Annotations are shared between pages.
* Status: the claim is false for several pages (annotations_shared); true within one registry
* Theorems: `Pdf.annotations_shared`, `Pdf.annotations_partial`

### C73 Arc length of curves is accurate (proved)

* Modelled: `normcurve_pt.arclen_pt`, `_midpointsplit`. (`pyx/normpath.py`)
* Proof: Variation in the plane between chord and control polygon; recursion bounded.
* Status: true length is the variation of the curve in the plane; the recursion is bounded explicitly
* Theorems: `NormPath.length_segments`, `NormPath.chord_le`, `NormPath.length_le`, `NormPath.arclen_bounds`, `NormPath.arclen_fuel`, `NormPath.arclen_terminates`, `NormPath.arclen_accurate`, `NormPath.line_arclen`

### C74 PNG output decodes to the image (proved)

* Modelled: `image.save` / PNG. (`pyx/bitmap.py`)
* Left out: zlib is a parameter.
* Proof: Separate PNG reader.
* Status: Read back with a PNG reader written after the PNG specification; zlib.compress and zlib.crc32 are parameters (inflate after compress is the identity, crc32 below 2^32).
* Theorems: `Bitmap.png_roundtrip`, `Bitmap.png_total`

### C75 splitatvalue puts a value into the documented section (proved)

* Modelled: `splitatvalue`. (`pyx/graph/data.py`)
* Proof: Order arithmetic.
* Theorems: `Data.splitatvalue_spec`

### C76 Point lists become columns without mixing rows (proved)

* Modelled: `points`, `values`. (`pyx/graph/data.py`)
* Proof: Lists of rows.
* Theorems: `Data.points_spec`, `Data.points_nil`, `Data.values_spec`, `Data.pyIndex_counts`

### C77 Derived data evaluate each expression row by row (proved)

* Modelled: `data.data`. (`pyx/graph/data.py`)
* Left out: Expression evaluation is a parameter.
* Proof: Row by row.
* Status: Evaluation of Python expressions is a parameter.
* Theorems: `Data.derive_spec`, `Data.derive_isSome`, `Data.resolve_spec`, `Data.derive_even`

### C78 Functions are sampled from the minimum to the maximum in equal steps (proved)

* Modelled: `function`, `paramfunction`. (`pyx/graph/data.py`)
* Proof: Arithmetic of samples.
* Code against the claim: Uneven tuples noticed late.
* Status: One point divides by zero; tuples of wrong size are noticed for the last point only (param_uneven).
* Theorems: `Data.samples_spec`, `Data.samples_range`, `Data.samples_one`, `Data.function_spec`, `Data.logSamples_spec`, `Data.param_spec`, `Data.param_uneven`

### C79 Fields of data lines are read back as written (proved)

* Modelled: `splitline` and its patterns. (`pyx/graph/data.py`)
* Left out: `\s` is a parameter.
* Proof: Characters; matching of the patterns.
* Theorems: `Data.fields_render`, `Data.fields_patterns`, `Data.splitValues_render`, `Data.values_written`

### C80 Column names come from the last non-empty comment before the data (partial)

* Modelled: Comment handling of `data.file`. (`pyx/graph/data.py`)
* Proof: Lines in order.
* Code against the claim: An empty comment clears the names.
* Status: False: an empty comment line clears the names (names_false). Proved: the names are the fields of the last comment line before the first selected line.
* Theorems: `Data.names_partial`, `Data.names_false`

### C81 Tangent arcs touch both legs of the corner (proved)

* Modelled: `arct_pt._pathitems`. (`pyx/path.py`)
* Proof: Trigonometry.
* Status: opposite directions (turn by exactly 180 degrees) depend on floating point rounding and are not covered
* Theorems: `Path.arct_spec`, `Path.arct_straight`, `Path.arctItems_error`

### C82 Arcs are approximated by Bezier curves on the circle (proved)

* Modelled: `_arctobezierpath`, `_arctobcurve`. (`pyx/path.py`)
* Proof: Trigonometry; distance bound.
* Theorems: `Path.arctobezierpath_spec`, `Path.arctobcurve_near`, `Path.arctobcurve_middle`, `Path.arctobcurve_tangent`, `Path.arctobcurve_distance`, `Path.bezierEndAngle_spec`

### C83 The bounding box of a path is the smallest box around its points (proved)

* Modelled: `path.bbox`. (`pyx/path.py`)
* Proof: C41, C49 along the path.
* Status: for arcs with radius >= 0
* Theorems: `Path.bbox_smallest`

### C84 SVG path data draw the mirrored path (partial)

* Modelled: `returnSVGdata`. (`pyx/path.py`)
* Left out: Number formatting.
* Proof: Separate SVG path machine including its arc command.
* Code against the claim: See C48.
* Status: whole paths without arcs; arcs item by item; false for arct after closepath or arc (svg_arct_wrong)
* Theorems: `Path.svg_eq_ps_partial`, `Path.svgArcs_correct`, `Path.svgArcs_last`, `Path.svgEndAngle_spec`, `Path.svg_arc_item`, `Path.svg_arcn_item`, `Path.svg_arct_wrong`

### C85 Lists of boxes, default center and bounding box (partial)

* Modelled: `genericalignequal` with both methods, `tile`, centre, `bbox`. (`pyx/box.py`)
* Left out: Circles of negative radius.
* Proof: Lists of boxes; moving further in the direction keeps the separating line.
* Code against the claim: `tile` wrong for directions not of length one; whether `circlealignequal` raises an error for a box that never meets its circle depends on the order of the boxes.
* Status: tile is wrong for directions not of length one (tile_wrong), proved for length one; circlealignequal for positive radii, its error for a box that never meets its circle depends on the order (order_matters).
* Theorems: `Box.linealignequal_partial`, `Box.tile_partial`, `Box.tile_wrong`, `Box.bbox_spec`, `Box.center_spec`, `Box.reltransform_spec`, `Box.rect_center`, `Box.circle_vec`, `Box.circlealignequal_partial`, `Box.unreachable_first`, `Box.unreachable_later`, `Box.order_matters`

### C86 Bitmaps are placed alike in all output formats (proved)

* Modelled: Placement of bitmaps in PS, PDF, SVG. (`pyx/bitmap.py`)
* Proof: Matrix arithmetic.
* Status: Exact arithmetic over a field; number formatting not included.
* Theorems: `Bitmap.ps_placement`, `Bitmap.ps_placement_total`, `Bitmap.pdf_placement`, `Bitmap.svg_placement`, `Bitmap.bitmap_placement`, `Bitmap.bitmap_size`

### C87 Different images in a PDF file stay different (partial)

* Modelled: Resource names of images. (`pyx/bitmap.py`, `pyx/pdfwriter.py`)
* Left out: SHA1 is a parameter.
* Proof: Registry.
* Code against the claim: Names depend on colour data only.
* Status: The claim is false: names are made from the hash of the colour data only (lines 433, 543-545), so bitmaps differing only in size, mode or alpha channel share one object; proved for documents whose bitmaps differ in data or compression. SHA1 is an injective function parameter (each_painted_partial) or arbitrary (negations).
* Theorems: `Bitmap.each_painted_partial`, `Bitmap.same_bytes_wrong`, `Bitmap.each_painted_wrong`, `Bitmap.same_colours_wrong`

### C88 Stored PostScript image data are the image data (proved)

* Modelled: `PSimagedata.output`. (`pyx/bitmap.py`)
* Proof: As C22.
* Theorems: `Bitmap.stringarray`

### C89 JPEG files are recognised (partial)

* Modelled: `jpegimage.__init__`. (`pyx/bitmap.py`)
* Proof: Segments of a JPEG file.
* Code against the claim: Contents of segments are searched for markers; SOF1 rejected.
* Status: Proved for files whose other segments contain no byte 255 (except stuffed zeros and markers without meaning). Refuted: contents of other segments are searched for markers (comment_ends_image); frames of type 0xc1 are rejected. Nested thumbnails are in the model, not in the theorem.
* Theorems: `Bitmap.jpeg_accepts`, `Bitmap.comment_ends_image`, `Bitmap.extended_rejected`

### C90 Written private font data is read back (proved)

* Modelled: `_data2decode`, `getdata2`, `PSbytes_tokenizer`. (`pyx/font/t1file.py`, `pyx/reader.py`)
* Left out: UniqueID removal; `int()` of digits.
* Proof: Byte level round trip and soundness.
* Code against the claim: Comments are not skipped.
* Status: Byte level; int() restricted to digit strings; names ASCII. The removal of UniqueID entries from the written data is not modelled. comments_not_skipped: the bytes tokenizer does not skip comments although documented.
* Theorems: `T1.data2_roundtrip`, `T1.readSubrArray_write`, `T1.readCharDict_write`, `T1.gettoken_write`, `T1.gettoken_sound`, `T1.data2decode_sound`, `T1.comments_not_skipped`

### C91 The path of a Type 1 glyph is the outline its charstring describes (partial)

* Modelled: All `updatepath` methods, `getglyphpath_pt`. (`pyx/font/t1file.py`)
* Proof: Simulation of the stack machine with a separate outline machine.
* Code against the claim: Composite widths and accents, fractions, counter hints, operands below.
* Status: glyph_path: for glyphs without components and charstrings with integer quotients and standard, tidy OtherSubrs calls (Spec.tidy) the path draws the outline and has the width; composite_path_partial: outline of composite glyphs with zero sidebearing. Disproved in general: width of composite glyphs, place of accents, fractions, counter hints, operands below callothersubr.
* Theorems: `T1.glyph_path`, `T1.composite_path_partial`, `T1.path_of_drawing`, `T1.composite_width_wrong`, `T1.accent_place_wrong`, `T1.fraction_wrong`, `T1.counter_wrong`, `T1.below_wrong`

### C92 A MetaPost-like path draws one segment per link (partial)

* Modelled: All knots and links, `path.__init__` (path.py:39-355), `mp_make_choices` (mp_path.py:54-166) on a table of mutable knots. (`pyx/metapost/mp_path.py`, `pyx/metapost/path.py`)
* Left out: Knot objects used twice; `atan2` and the choice of control points within a run are parameters here.
* Proof: Which sides of which knots each step changes; the walk round the path covers every curve in exactly one pass.
* Code against the claim: Closing lines are not drawn, `keepangles` overwrites control points, smooth knots next to lines.
* Status: Proved for every path whose last link is not a line, without gaps if it is closed, and without a controlcurve before a line that keeps angles. In the excluded cases the property is false, shown by concrete paths: the closing line is never drawn, keepangles overwrites a control point; also, smooth knots next to lines are not changed to rough ones and closed paths with a line are not closed.
* Theorems: `MetaPost.draws_links_partial`, `MetaPost.closed_curves`, `MetaPost.closing_line_missing`, `MetaPost.control_overwritten`, `MetaPost.last_line_keepangles`, `MetaPost.smooth_before_line`, `MetaPost.smooth_behind_line`, `MetaPost.line_not_closed`

### C93 A line with keepangles continues the curves next to it (proved)

* Modelled: As C92 and C61 together: path construction over the real numbers with the solver of C61. (`pyx/metapost/mp_path.py`, `pyx/metapost/path.py`)
* Left out: As C92, C61.
* Proof: The given direction reaches the run the knot belongs to; tangents of that run.
* Status: Lines that close the path are never drawn (C92) and are left out. straight_made shows that a path meeting the hypotheses exists.
* Theorems: `MetaPost.keeps_before`, `MetaPost.keeps_behind`, `MetaPost.straight_made`

### C94 EPS bounding boxes are read from the file's comments (partial)

* Modelled: `linefilereader.readline`, `read`, `_readbbox` up to the end of the header. (`pyx/epsfile.py`)
* Left out: The body and trailer of the file, which the code never reaches.
* Proof: Separate definition of the first line; induction over the parts read and over the header lines.
* Code against the claim: `(atend)` is never recognised.
* Status: Proved for boxes given in the header. A box deferred to the trailer by (atend) is never read: bytes are compared with a string, proved as bbox_atend_fails.
* Theorems: `Eps.readline_line`, `Eps.readline_ok`, `Eps.readline_eof`, `Eps.read_spec`, `Eps.bbox_header_partial`, `Eps.bbox_atend_fails`

### C95 EPS files are placed with the asked size and alignment (proved)

* Modelled: `epsfile.__init__`, `bbox`, the clip of `processPS`. (`pyx/epsfile.py`)
* Left out: Reading the file, PDF output (runs Ghostscript).
* Proof: Matrix arithmetic.
* Code against the claim: With `translatebbox=0` the alignment refers to the size only.
* Status: For translatebbox (the default) and positive factors; untranslated_not_aligned shows what the alignment means otherwise.
* Theorems: `Eps.placed_box`, `Eps.placed_size`, `Eps.clip_box`, `Eps.untranslated_not_aligned`

### C96 Begin and end of a path (partial)

* Modelled: `path.atend_pt`, `atbegin_pt` through `path.normpath` (path.py:1145-1155, normpath.py:1019-1029, 1695-1712) on the model of normpath construction of C06. (`pyx/normpath.py`, `pyx/path.py`)
* Left out: As the model of normpaths.
* Proof: Invariant: end of the normpath plus remembered short line is the current point, kept by every pathitem.
* Code against the claim: Partial: exact for paths which do not begin with a clockwise arc. The normsubpath of such an arc is reversed and a remembered short line is dropped; begin and end are then proved to be right up to epsilon (`atBegin_near`, `atEnd_near`, for all paths), and `begin_moved` shows that they are not exact.
* Status: Exact unless the path begins with a clockwise arc; in that case exact up to epsilon (atEnd_near, atBegin_near), and the exact claim is false (begin_moved).
* Theorems: `Path.atEnd_current_partial`, `Path.atBegin_first_partial`, `Path.atEnd_near`, `Path.atBegin_near`, `Path.begin_moved`

### C97 SVG path data is drawn as SVG says (partial)

* Modelled: `svgHandler.toPath` (svgfile.py:148-241) without arcs. (`pyx/svgfile.py`)
* Left out: Arcs (C100), reading of the text (C98).
* Proof: Separate drawing rules of SVG with an explicit reflected control point; induction over argument groups.
* Code against the claim: Mixed smooth cubic and quadratic commands, commands after closepath and incomplete groups differ from SVG.
* Status: Proved for command sequences without arcs in which smooth commands follow commands of their own kind and closepath is followed by moveto; the other cases violate the claim (witnesses).
* Theorems: `Svg.toPath_draws_partial`, `Svg.quadTo_points`, `Svg.smooth_after_quadratic`, `Svg.quad_smooth_after_cubic`, `Svg.missing_number`, `Svg.after_close`, `Svg.after_close_fails`

### C98 SVG numbers and commands are read as written (partial)

* Modelled: `_svgFloatPattern`, `_svgPathPattern`, `toFloat`, `toFloats`, `toBool` (svgfile.py:84-145). (`pyx/svgfile.py`)
* Left out: Percentages; white space in front of `points`.
* Proof: Grammar of numbers with the condition under which two may touch; the reader returns the written value and the rest.
* Code against the claim: `10.` is not a number for the code; `pt` is accepted; the rotation of an arc is scaled like a length.
* Status: Proved for numbers with a digit behind the decimal point; a trailing decimal point is not read and the rotation of arcs is scaled (witnesses).
* Theorems: `Svg.readValue_text`, `Svg.toFloat_text`, `Svg.toFloats_text`, `Svg.findCmds_spec`, `Svg.path_data_read_partial`, `Svg.trailing_point`, `Svg.pt_in_path`, `Svg.arc_rotation_scaled`

### C99 SVG transformations compose in the order given (partial)

* Modelled: `svgHandler.toTrafo` (svgfile.py:243-281) after the numbers have been read. (`pyx/svgfile.py`, `pyx/trafo.py`)
* Left out: Errors for wrong numbers of arguments.
* Proof: Matrix arithmetic and induction over the list.
* Code against the claim: `matrix` is transposed; matrices and skews are multiplied on the wrong side.
* Status: Proved for translations, scalings and rotations, and a last item that is a skew or a symmetric matrix; matrices are transposed and composed in the wrong order (witnesses).
* Theorems: `Svg.toTrafo_partial`, `Svg.matrix_transposed`, `Svg.skew_order`, `Svg.skew_order_wrong`

### C100 SVG files are placed with the asked size (partial)

* Modelled: The `svg` element (svgfile.py:390-417), `svgBboxHandler` (483-500), placement in `svgfile_pt` (533-568), composition of canvas attributes (canvas.py:141-150). (`pyx/svgfile.py`)
* Left out: Percentages for unparsed files, fallback bounding boxes.
* Proof: Matrix arithmetic against the viewport rule of the SVG standard.
* Code against the claim: `preserveAspectRatio` is ignored (the picture is stretched); the clip is taken in user units (centimetres) instead of points.
* Status: Placement proved in full for files; the viewBox is right if it has the shape of the viewport. Stretched pictures and the clip in user units violate the claim (witnesses).
* Theorems: `Svg.viewBox_partial`, `Svg.noViewBox`, `Svg.no_size`, `Svg.fileTrafo_place`, `Svg.fileTrafo_refused`, `Svg.unparsed_same`, `Svg.aspect_ignored`, `Svg.clip_scaled`

### C101 SVG arcs join their end points as SVG says (partial)

* Modelled: `endpointarc` (svgfile.py:30-79), exact circle. (`pyx/svgfile.py`)
* Left out: Approximation of the circle by curves (C52), joining to the path.
* Proof: Reduction to the unit circle; sine and cosine of the extent decide direction and size.
* Code against the claim: An arc between equal points divides by zero instead of being left out.
* Status: Full specification for different end points and non-zero radii; equal end points make the code fail (witness).
* Theorems: `Svg.endpointarc_partial`, `Svg.endpointarc_line`, `Svg.endpointarc_equal`

### C102 SVG shapes are drawn with the paint and transformations around them (partial)

* Modelled: `startElementNS`/`endElementNS` for `svg`, `g` and shapes (svgfile.py:134-138, 388-476) as a machine on a stream of events. (`pyx/svgfile.py`)
* Left out: Colors and other styles themselves.
* Proof: Induction over trees: the events of an element draw its shapes and restore the state.
* Code against the claim: Paint of the root is ignored, shapes in `defs` are drawn, an inner `svg` drops everything in front of it.
* Status: Proved for all trees of groups and shapes below a root without paint; witnesses for the other cases.
* Theorems: `Svg.Tree.file_partial`, `Svg.Tree.root_paint`, `Svg.Tree.defs_drawn`, `Svg.Tree.inner_svg_loses`

### C103 The line of a graph is the part of the data's polygon within the graph (partial)

* Modelled: Validity in `pos.drawpoint` (graph/style.py:222-235), `_line` (509-629) with both tolerances. (`pyx/graph/style.py`)
* Left out: Axes' conversion of values to positions (C18); deciding which values are invalid; drawing.
* Proof: One-dimensional cuts give intervals of parameters; the fold over coordinates intersects them; invariant of the state machine on the list of base points, and naturality in the map to the canvas.
* Code against the claim: Between the tolerances a cut may leave [0, 1]: a line far outside of the graph is drawn (`line_escapes`).
* Status: Positions with a coordinate outside by no more than the tolerance (1e-10) are excluded: for these the claim is false (line_escapes).
* Theorems: `Style.line_clipped_partial`, `Style.line_connected`, `Style.line_escapes`

### C104 Error bars are cut at the boundary of the graph (partial)

* Modelled: `errorbar.drawpoint` (graph/style.py:759-799). (`pyx/graph/style.py`)
* Left out: Conversion by `range.drawpoint`, the shape of caps (`vcap_pt`).
* Proof: Case analysis per end against the part inside of an axis-parallel line.
* Code against the claim: On a reversed axis a bar reaching over the boundary is not drawn at all (`errorbar_reversed`).
* Status: Ends in the order of graph coordinates only (false on reversed axes: errorbar_reversed); no coordinate outside by less than the tolerance.
* Theorems: `Style.errorbar_clip_partial`, `Style.errorbar_nothing`, `Style.errorbar_reversed`

### C105 A histogram draws the outline of its bins, cut at the boundary of the graph (partial)

* Modelled: `histogram.vmoveto`, `vposline`, `vvalueline`, `drawvalue`, `initdrawpoints`, automatic ranges of `drawpoint`, `donedrawpoints` (graph/style.py:983-1313). (`pyx/graph/style.py`)
* Left out: Curved graph geometries, axis adjustment, key.
* Proof: Invariant on the pen: behind a bin it is at its end if that is within the graph; the path is interpreted by a small path machine and compared with the outline.
* Code against the claim: Without `fromvalue`, a fillable histogram without steps raises an AttributeError (`rectangle_no_fromvalue`).
* Status: Numbers outside by less than the tolerance, and neighbours which are adjacent only up to the tolerance, are excluded; without fromvalue fillable rectangles raise.
* Theorems: `Style.Hist.histogram_partial`, `Style.Hist.clip_spec`, `Style.Hist.edge_hull`, `Style.Hist.fillable_steps_partial`, `Style.Hist.rectangle`, `Style.Hist.auto_ranges`, `Style.Hist.auto_neighbours`, `Style.Hist.rectangle_no_fromvalue`

### C106 Three-dimensional graphs are projected correctly (partial)

* Modelled: `graphxyz.central` and `graphxyz.parallel` (point, zindex, angle), `vpos_pt`, `vangle`, `vcap_pt`, `vtickdirection`, `xorder`/`yorder`, the six `pXYshow` flags, and position, tick direction and `hidden` of all twelve axes in `doaxispositioner` (`graph/graph.py:689-803, 909-993, 1019-1112`) over the reals with `Real.sin`, `Real.cos`, `Real.sqrt`; a division by zero is `none`. (`pyx/graph/graph.py`)
* Left out: the unit conversion, `xy12axesatname` (the value is an argument), grid paths, key placement.
* Proof: The picture axes and the viewing direction are shown to be a right-handed orthonormal system; determinants are then computed in its coordinates, where the projection is `D·a·p/(D-e·p)`. The specification uses only vectors, signed areas of triangles and half-spaces.
* Code against the claim: Holds, except for ticks of axes moved by `xy12axesat` (`ticks_skewed`); error bar caps come out `2·scale` times too long (`cap_too_long`).
* Status: All parts hold except the tick direction of x, x2, y, y2 axes moved by xy12axesat, which starts at height 0 instead of at the axis (ticks_skewed), and the length of error bar caps, which is scaled by twice the axis scale (cap_too_long).
* Theorems: `Graph.axes_orthonormal`, `Graph.central_is_projection`, `Graph.central_segment`, `Graph.central_zindex`, `Graph.central_angle`, `Graph.parallel_angle`, `Graph.parallel_is_projection`, `Graph.geodesic`, `Graph.faces_central`, `Graph.faces_parallel`, `Graph.front_axes`, `Graph.axes_hidden`, `Graph.axes_edges`, `Graph.ticks_partial`, `Graph.ticks_skewed`, `Graph.cap_too_long`

### C107 Bars show the part of their range inside the graph and stack without gaps (partial)

* Modelled: `barpos.addsubvalue`, `barpos.drawpoint`, `stackedbarpos.drawpoint`, `bar.drawpoint` in two and three dimensions, the counters of stacked bars and `bar.key_pt` (`graph/style.py:1362-1593`). A conversion that raises is `none`. (`pyx/graph/style.py`)
* Left out: column names, axis adjustment, attributes, the order of three-dimensional bars by `zindex`, `changebar`.
* Proof: Clipping is compared with membership in the unit square and in the unordered range; the polygon with the intersection of half-planes; the faces with half-spaces through `faces_central`-like determinants; stacks by induction on the stacked values; the key with a tiling predicate.
* Code against the claim: Holds, except the validity flag of stacked values (`stacked_valid_wrong`).
* Status: Validity of a stacked position fails if the position below is valid and the stacked value is outside of the graph (stacked_valid_wrong). Everything else is proved.
* Theorems: `Style.Bar.addsubvalue_components`, `Style.Bar.barpos_right`, `Style.Bar.stacked_right_partial`, `Style.Bar.stacked_available`, `Style.Bar.stacked_valid_wrong`, `Style.Bar.stack_step`, `Style.Bar.stack_sum`, `Style.Bar.bar_region`, `Style.Bar.bar_nothing`, `Style.Bar.key_tiles`, `Graph.bar_faces`

### C108 Two-dimensional graphs put points, axes, grid lines and keys where they belong (proved)

* Modelled: `graphxy`: size, `vpos_pt`, `vgeodesic`, `vcap_pt`, grid paths, `axespositioners`, `doaxispositioner`, `axisatv`, `autokeygraphtrafo`, placing of keys (`graph/graph.py:311-632`), `lineaxispos_pt` (`graph/axis/positioner.py:79-104`), the columns of `key.paint` (`graph/key.py:98-114`). Extents of axes are a parameter. (`pyx/graph/axis/positioner.py`, `pyx/graph/graph.py`, `pyx/graph/key.py`)
* Left out: parsing of axis names, layers, unit conversion, `pathpositioner`, drawing of key items, bounding boxes of key columns that do not start at 0.
* Proof: `pt` (a point by the values of the two directions) and `vpos` are the reference; axes are compared with it point by point, further axes by strong induction on their number; the key by linear arithmetic, the columns by induction on the `while` loop.
* Code against the claim: Holds, but the public methods `xvgridpath`/`yvgridpath` ignore `flipped` (`xvgridpath_flipped`).
* Status: The public xvgridpath/yvgridpath ignore flipped (finding); the grid paths of axes are right.
* Theorems: `Graph.XY.axes_boundary`, `Graph.XY.axes_outwards`, `Graph.XY.axes_face_graph`, `Graph.XY.grid_path`, `Graph.XY.axis_at`, `Graph.XY.axis_gap`, `Graph.XY.geodesic2`, `Graph.XY.cap`, `Graph.XY.size_ratio`, `Graph.XY.keygraph_beyond`, `Graph.XY.key_placed`, `Graph.XY.key_columns`, `Graph.XY.key_offsets`, `Graph.XY.xvgridpath_flipped`, `Graph.XY.base_path`

### C109 Plot items give their styles all the data they need, points in order, and their own selection (proved)

* Modelled: `registerdefaultprovider`, `getdefaultprovider`, the `while addstyles` loop of `plotitem.__init__`, `plotitem.draw`, `stylesid` and both counting loops of `dostyles` (`graph/graph.py:36-140, 257-283`), needs and provided names of the registered styles. A style is its identity, needs and provided names. (`pyx/graph/graph.py`, `pyx/graph/style.py`)
* Left out: what styles do with the data, `columnnames`, key drawing; dictionaries keep insertion order.
* Proof: `Satisfied` speaks about positions in the list only; the pass is characterised by what it adds; termination by induction on a rank of names; points by `pointAt`, direct indexing; selection by counting equal lists, using injectivity of the joined decimal identities.
* Code against the claim: Holds; a default provider may be added twice (`pos_twice`, harmless).
* Status: Termination is proved for registries without cycles of needs, which includes PyX's own; defaults_cycle shows the condition is needed.
* Theorems: `Graph.Item.register_valid`, `Graph.Item.needs_met`, `Graph.Item.nothing_added`, `Graph.Item.defaults_found`, `Graph.Item.defaults_registered`, `Graph.Item.defaults_cycle`, `Graph.Item.pos_twice`, `Graph.Item.draw_spec`, `Graph.Item.provided_first`, `Graph.Item.stylesid_inj`, `Graph.Item.select_spec`, `Graph.Item.select_distinct`

### C110 A graph does everything once and in the right order, however its methods are called (partial)

* Modelled: `did` and all `do...` methods of `graph`/`graphxy`, `plot`, `finish`, `bbox`, `processPS/PDF/SVG` (`graph/graph.py:163-313, 556-632`) as state transformers with a log of what is done; plot items are numbered. (`pyx/graph/graph.py`)
* Left out: what the steps do, exceptions in them (an axis which depends on a missing one is created here), `graphxyz`, several data in one `plot` call.
* Proof: An invariant with the set of calls in progress is kept by `did` (generic lemma `did_at`); the specification `Pre` mentions only the log. Induction over the calls of the user.
* Code against the claim: Holds except that a key painted before the first `plot` is never completed (`key_lost`), and that SVG output does not finish the graph (`svg_unfinished`).
* Status: All claims proved except completeness of the key when it was painted before plotting (refuted by key_lost) and of SVG output (refuted by svg_unfinished).
* Theorems: `Graph.Steps.once`, `Graph.Steps.in_order`, `Graph.Steps.draw_after`, `Graph.Steps.axis_after`, `Graph.Steps.output_complete`, `Graph.Steps.ranges_complete`, `Graph.Steps.plot_refused`, `Graph.Steps.key_complete_partial`, `Graph.Steps.key_lost`, `Graph.Steps.svg_unfinished`

### C111 Columns of the data go to the axes they are named after (partial)

* Modelled: the styles `pos` and `range` (`graph/style.py:172-394`): `columnnames`, index bookkeeping of `initdrawpoints`, `drawpoint`, and `range.adjustaxis` with the deltas kept between calls. Names are lists of characters. (`pyx/graph/style.py`)
* Left out: `vposavailable`/`vposvalid` (see C103), `dataaxisnames`; joined static and dynamic data.
* Proof: The reference takes for each dimension the axis with columns and its columns by name. The index arithmetic over missing dimensions is shown to give the position of each entry (`shift_positions`, right induction); adjusting is compared up to order by counting, by induction over the columns with the stored deltas as invariant.
* Code against the claim: Holds, except that a column used for two axes is converted by the last of them only (`pos_same_column`).
* Status: All claims proved except for positions when one column is used for several axes by usenames: then it is converted by the last of them (refuted by pos_same_column).
* Theorems: `Style.Columns.pos_columns`, `Style.Columns.pos_draw_partial`, `Style.Columns.pos_same_column`, `Style.Columns.range_columns`, `Style.Columns.range_draw`, `Style.Columns.range_adjust`

### C112 Data on a grid are collected, connected and put into bitmaps where they belong (partial)

* Modelled: `gridpos.drawpoint`, `grid.donedrawpoints`, `density.drawpoint` and `density.donedrawpoints` up to the transformation of the bitmap, `surface.drawpoint` (`graph/style.py:1622-1717, 1753-1758, 1915-2018`). Dictionaries are functions with lists of keys. (`pyx/graph/style.py`)
* Left out: the check that data are in a plane in three dimensions, the clipping path and colors themselves (a function which may fail).
* Proof: `rep` gives the value a coordinate belongs to with respect to the final list of values; it does not change when values are added (`snap_keep`), so data are those of the last point by right induction. Colors by simulation of a second grid. Lines by C103 and `dataLines_neighbours`. Bitmap by indexing of blocks; placement over a field, with the fourth corner computed.
* Code against the claim: Holds except for colors of points without position (`color_replaced`, `color_first`).
* Status: Colors are those of the last point at a place only if no position is missing (color_replaced, color_first: an unavailable point overwrites the color of the previous one, or raises if it is the first). Lines under the condition of C103 about the tolerances of clipping.
* Theorems: `Style.Grid.grid_points`, `Style.Grid.grid_exact`, `Style.Grid.grid_colors_partial`, `Style.Grid.color_replaced`, `Style.Grid.color_first`, `Style.Grid.grid_lines_partial`, `Style.Grid.density_accepts`, `Style.Grid.density_image`, `Style.Grid.density_placed`

### C113 Surfaces are drawn from the back to the front (partial)

* Modelled: `surface.donedrawpoints` (`graph/style.py:1760-1907`): reversal of values, `sortElements`, cells, `shrink`, `midvalue`, triangles and strips with their order, `sign` and `vangle`; `vzindex` (`graph/graph.py:921-924`); on top of the projectors of C106, over the reals. (`pyx/graph/graph.py`, `pyx/graph/style.py`)
* Left out: colors (except front or back), the mesh itself (see the model of meshes), data snapped to a grid value within epsilon (data are exactly on the grid here).
* Proof: A point hides another if positions are equal and `zindex` is smaller. For both projections something hidden is farther along the line of sight (`parallel_hides`, `central_hides`), hence not later in an oriented coordinate (`Sorted`); elements are within their cells, not all corners at one side. Triangles by barycentric coordinates. Front and back by the sign of the third component of the normal.
* Code against the claim: Cells hold for parallel projections; for central ones fails if the eye is above the graph in a coordinate (`surface_wrong`); triangles fail if scales or spacings differ (`triangles_wrong`).
* Status: Cells are in the right order for parallel projections; for central projections only if the eye is not above the graph in a grid coordinate (surface_wrong is a counterexample otherwise). Triangles of a cell are ordered by comparing the graph, not the cell: right if both agree (agrees_square), wrong otherwise (triangles_wrong).
* Theorems: `Style.Surface.surface_parallel`, `Style.Surface.surface_central_partial`, `Style.Surface.surface_wrong`, `Style.Surface.surface_triangles_partial`, `Style.Surface.agrees_square`, `Style.Surface.triangles_wrong`, `Style.Surface.back_parallel`, `Style.Surface.back_central`

### C114 Painted axes: ticks, labels and titles are where they should be and the extent covers them (partial)

* Modelled: `regular.paint`, `_title.paint`, `bar.paint` and the break lines of `split.paint` (`graph/axis/painter.py:130-281, 333-394, 420-446`) on top of the boxes of C33; texts are arbitrary functions to polygons. The extent of the canvas is part of the state. (`pyx/graph/axis/painter.py`)
* Left out: layers of the axis canvas (items are a list in the order of drawing), `ps2raster`-like text rotation (`trafo` of label directions is part of the text function), `vlabelpath`-like attributes; dashing of ticks.
* Proof: What is drawn is given by a relation `New` for one tick, independent of the order; positions of labels come from `linealign` of C33 (`align_ok`). For straight axes everything is measured along the tick direction: all drawn items are below the final extent, by induction over ticks; the extent is one of the values compared (`axis_extent_partial`). Bar axes reuse this from any canvas already painted on.
* Code against the claim: What is drawn holds; the extent fails for equalized labels (`extent_wrong`); missing attributes raise an error (`label_off`).
* Status: What is drawn is proved for all painters without further restriction. The extent claim fails for equalized labels of different depth (extent_wrong); axis_extent_partial and bar_extent_partial assume that labels are not equalized or one of them has all the height and depth. A label whose attributes select nothing raises AttributeError (label_off).
* Theorems: `Axis.Paint.painted`, `Axis.Paint.axis_extent_partial`, `Axis.Paint.title_spec`, `Axis.Paint.title_direction`, `Axis.Paint.bar_extent_partial`, `Axis.Paint.barTicks_spec`, `Axis.Paint.breaklines_spec`, `Axis.Paint.graph_straight`, `Axis.Paint.label_off`, `Axis.Paint.extent_wrong`, `Axis.Paint.bar_names`

### C115 Copies with changed parameters equal objects made with all arguments at once (partial)

* Modelled: `merge_members_kwargs` and `kwsplit` (`utils.py`), the constructors and `__call__` of all axes, painters, parters, raters, texters, and of `deco.arrow`, `deco.brace`, `deformer.cycloid`, `deformer.cornersmoothed`, `deformer.parallel`, `pattern.pattern`, as descriptors: own parameters, parts, attributes stored by `__init__`, members listed in `__call__`, class of the result. Keyword arguments are finite-depth paths (`painter_titledist` is `[painter, titledist]`). (`pyx/deco.py`, `pyx/deformer.py`, `pyx/graph/axis/axis.py`, `pyx/graph/axis/painter.py`, `pyx/graph/axis/parter.py`, `pyx/graph/axis/rater.py`, `pyx/graph/axis/texter.py`, `pyx/pattern.py`, `pyx/utils.py`)
* Left out: what the parameters do; merging of attribute lists in `deco.arrow`; values are an arbitrary type.
* Proof: A general law (`call_spec`) for descriptors with the property `Good`, which every good class of PyX is shown to have (`good_desc`); the law for parts of parts follows from the law for objects (`call_lawful`).
* Code against the claim: Partial: proved for the good classes. The texters `rational`, the parters `linear` and `logarithmic`, logarithmic axes, bar, nested bar and split axes, and patterns violate the claim (see the findings); the texter `default` satisfies it if `minnegexponent` was given.
* Status: Proved for all classes whose __call__ satisfies the law; the other classes are findings with the negation proved.
* Theorems: `Util.Cfg.call_spec`, `Util.Cfg.good_desc`, `Util.Cfg.copy`, `Util.Cfg.copy_texDefault_partial`, `Util.Cfg.copy_keeps`, `Util.Cfg.copy_changes`, `Util.Cfg.call_lawful`, `Util.Cfg.copy_raises`, `Util.Cfg.log_raises`, `Util.Cfg.bar_forgets`, `Util.Cfg.painter_raises`, `Util.Cfg.exponenttexter_ignored`, `Util.Cfg.minnegexponent_kept`, `Util.Cfg.pattern_call`

### C116 The picture of an axis agrees with the axis (partial)

* Modelled: `_create` of regular axes (`graph/axis/axis.py:120-238`) from the list of variants on: `layout` with the adjustment of the range, texter, multiplication of ticks in place, painting; the loop over the variants with sorting and rating; the end. Tick objects are references to a heap with values and labels. (`pyx/graph/axis/axis.py`, `pyx/graph/axis/tick.py`)
* Left out: the search for variants (C69), what the texter writes (C19, C70) and the painter draws (C114): both are arbitrary functions of all ticks.
* Proof: An invariant for all variants (`LoopOk`): a variant without layout has its original values, one with a layout has the values and labels it was painted with; a layout of another variant does not change this, provided ticks are not shared or there is no divisor (`varOk_other`). The number of passes is bounded by the number of variants.
* Code against the claim: Partial: with a divisor, variants must not share ticks and the divisor must be exact. With manual ticks, a divisor and more than one layout the claim is false (`manual_shared`), also for reuse of an axis without parter (`manual_twice`) and rounded divisors (`divisor_rounded`). For constant data at a fixed end, this end is moved by `fallbackrange` (`fixed_end_moved`).
* Status: Proved unless tick objects are shared between partitions while a divisor is set (manual ticks), or the divisor is rounded; these cases are findings with witnesses.
* Theorems: `Axis.Create.create_agrees_partial`, `Axis.Create.create_within`, `Axis.Create.create_ends`, `Axis.Create.manual_twice`, `Axis.Create.manual_shared`, `Axis.Create.divisor_rounded`, `Axis.Create.create_best`, `Axis.fixed_end_moved`

### C117 Linked axes show one common range (partial)

* Modelled: `create`, `adjustaxis`, `convert` of `anchoredaxis` and `linkedaxis` (`graph/axis/axis.py:580-711`) over any network of linked axes (a linked axis is linked to an earlier one), with shared data and the data each canvas was painted for; the pairs `x`, `x2` and `y`, `y2` of `graphxy` (`graph/graph.py:341-372`); `xvtickpoint`. (`pyx/graph/axis/axis.py`, `pyx/graph/graph.py`)
* Left out: the create call of the graph (C110), other axis names, arguments for axes (C115), `vtickpoint` (which multiplies a tuple by a unit and raises `TypeError`).
* Proof: Induction over the sequence of operations with the invariants `Before` and `After` for all axes with the same root; order independence for regular axes from C15.
* Code against the claim: Partial: all columns are given before the first creation. A later column given to a linked axis which is not yet created changes the range after the first axis was painted (`linked_adjust`).
* Status: Proved when all columns are given before the first of the linked axes is created; otherwise false, with a witness.
* Theorems: `Axis.Anchored.linked_agree_partial`, `Axis.Anchored.linked_order`, `Axis.Anchored.setup_spec`, `Axis.Anchored.setup_raises`, `Axis.Anchored.linked_adjust`, `Axis.Anchored.xvtickpoint_wrong`

### C118 The position at a given arc length is found up to the precision (partial)

* Modelled: `_arclentoparam_pt` of `normline_pt`, `normcurve_pt` and `normsubpath` (`normpath.py:173-176, 488-498, 986-1003`), `subparamtoparam` of the four replacements used by `_split` (`normpath.py:724-780`) with `realpolyroots` as modelled for C62; `ZeroDivisionError` and `IndexError` as values. The depth of the recursion is bounded by an argument; `toParam_total` shows that the depth needed by `arclen_pt` (C73) is sufficient. (`pyx/mathutils.py`, `pyx/normpath.py`)
* Left out: several sub-paths (C46 for polylines), conversion of units; several lengths are treated independently of each other.
* Proof: The hodograph bound `along` of the control polygon is an upper bound of the length up to a parameter and exceeds it by less than polygon minus chord; the equation solved is exactly `along t = s/chord * polygon`; induction over the recursion, adding up the errors of the left halves.
* Code against the claim: Partial: `realpolyroots` returns wrong numbers for some cubic polynomials with a double root (C62), then the parameter is wrong: for the curve `(0,0) (0,0) (1,0) (1,0)` the parameter of arc length 0 is -1/2, where the curve is at its end (`toParam_false`). A part with coinciding ends leads to `ZeroDivisionError` (`toParam_total`); an `IndexError` is impossible.
* Status: accuracy, order and ends unless realpolyroots is asked for one of the cubic polynomials it gets wrong (C62)
* Theorems: `NormPath.ByLength.toParam_accurate_partial`, `NormPath.ByLength.toParam_mono_partial`, `NormPath.ByLength.toParam_begin_partial`, `NormPath.ByLength.toParam_end_partial`, `NormPath.ByLength.toParam_length`, `NormPath.ByLength.toParam_total`, `NormPath.ByLength.toParam_false`, `NormPath.ByLength.scan_accurate_partial`, `NormPath.ByLength.scan_begin_partial`, `NormPath.ByLength.scan_end_partial`

### C119 The arc length at a given parameter is found up to the precision (partial)

* Modelled: `normcurve_pt._paramtoarclen_pt` (`normpath.py:584-588`) with `segments` (C40) and `arclen_pt` (C73). (`pyx/normpath.py`)
* Left out: distribution of the parameters to the items of a path (C46 for polylines).
* Proof: Lengths of consecutive segments add up (`variation_add`); induction over the parameters.
* Code against the claim: Partial: for parameters in increasing order. For others the lengths of segments running backwards are added as well: `[2/3, 1/3]` on a straight curve of length 3 gives `[2, 3]` and the total length 5 (`toArclens_false`).
* Status: for parameters in increasing order
* Theorems: `NormPath.ByLength.toArclens_accurate_partial`, `NormPath.ByLength.toArclens_single`, `NormPath.ByLength.toArclens_total`, `NormPath.ByLength.toArclens_false`

### C120 The SVG file of a canvas shows the picture of the canvas (partial)

* Modelled: `canvas.processSVG` (`canvas.py:256-285`), `decoratedpath.processSVG` (`deco.py:297-376`), texts (`font/font.py:692-760`), `processSVGattrs` of styles, colours, patterns, transparency, clip and transformation, the context and the root element (`svgwriter.py:195-262`). A viewer (`SVG.run`): inherited attributes, groups, fill before stroke. (`pyx/canvas.py`, `pyx/color.py`, `pyx/deco.py`, `pyx/font/font.py`, `pyx/style.py`, `pyx/svgwriter.py`)
* Left out: The registry (a clip path is given by the path instead of its id), format of numbers, kerning, slanted fonts (which raise an `AttributeError`: `outputSVGattrs` does not exist), bitmaps, form fields (which raise an error).
* Proof: Structural induction; the invariant relates context, inherited attributes and style; balance of groups by a depth counter.
* Code against the claim: Partial: in the cases excluded by `SvgOK` the picture is wrong: strokes are covered by fillings if an arrow cuts the stroke (`svg_stroke_below`), ornaments inherit styles of the stroke (`svg_ornament_styles`), texts of opacity 0 are opaque (`svg_text_opaque`), opacities of stroke and filling get mixed up (`svg_opacity_stale`).
* Status: For trees meeting SvgOK; four counterexamples show that the conditions are needed.
* Theorems: `Canvas.svg_picture_partial`, `Canvas.svg_state_restored`, `Canvas.svg_viewBox_contains_partial`, `Canvas.svg_stroke_below`, `Canvas.svg_ornament_styles`, `Canvas.svg_text_opaque`, `Canvas.svg_opacity_stale`, `Canvas.svg_fillrule_used`

### C121 Arrows sit on their paths (partial)

* Modelled: `_arrowhead` and `arrow` (`deco.py:450-570`): length up to the constriction point, position of the tip, template, rotated barbs, outline, excluded range, attributes and `__call__`. Paths are given by their points at arc lengths (`Track`). (`pyx/deco.py`)
* Left out: Epsilon (joining of curves closer than epsilon), closed sub-paths, the canvas of the ornaments (C120).
* Proof: Computation with rotations; distances to the tip are kept by rotations and by lines between points of a disc; the excluded ranges by C50.
* Code against the claim: Proved with two deviations: if a path is shorter than the head, a stroke outside of the path appears (`short_path_stroke`); an arrow with `deco.filled.clear` is filled again by `__call__` (`arrow_call_fills`; positive part `arrow_call_keeps`).
* Status: Geometry proved for all tracks and settings; deviations: paths shorter than the head get a stray stroke (short_path_stroke), __call__ re-adds deco.filled after filled.clear (arrow_call_fills).
* Theorems: `Deco.outline_loop`, `Deco.tip_at_end`, `Deco.head_on_path`, `Deco.head_within`, `Deco.head_straight`, `Deco.straight_back`, `Deco.stroke_meets_head`, `Deco.arrow_back`, `Deco.both_ends`, `Deco.arrow_call_keeps`, `Deco.short_path_stroke`, `Deco.arrow_call_fills`

### C122 Texts beside and along paths, and hatchings, are where they should be (proved)

* Modelled: `text` and `curvedtext` (`deco.py:588-687`), `linehatched` (`deco.py:740-797`); `path.trafo` as in C42, boxes of texts as in C52, excluded ranges as in C50. (`pyx/deco.py`)
* Left out: Typesetting, units, merging of text attributes, negative distances of hatchings.
* Proof: `rotate_atan2` (C42) gives the direction; the alignment is C52; the ranges are C50; for hatchings the point is turned back and the number of the line is a floor.
* Code against the claim: Proved (for boxes of texts with the conditions of C52 on sides nearly parallel to the direction).
* Status: Text boxes subject to the conditions of C52 (sides not nearly parallel to the direction).
* Theorems: `Deco.text_direction`, `Deco.text_beside`, `Deco.text_pos`, `Deco.curved_items`, `Deco.curved_straight`, `Deco.curved_excluded`, `Deco.hatch_covers`, `Deco.hatch_merge`

### C123 deformer.cornersmoothed removes the corners of paths and nothing else (partial)

* Modelled: `curvescontrols_from_endlines_pt` (`deformer.py:45-81`), `controldists_from_endgeometry_pt` (`deformer.py:83-332`, both the general case and the fallbacks), `cornersmoothed` (`deformer.py:511-684`); normpath items as in C42. (`pyx/deformer.py`)
* Left out: The numerical root finder (a parameter; exact roots are a hypothesis where needed), logging, decorations of the path.
* Proof: The control points are convex combinations; curvatures from first and second derivatives; the polynomials are eliminants of the coupled equations; the path is a chain of pieces with equal directions at the joints.
* Code against the claim: Partial: the tangent is continuous for all polygons and for all cuts with a well-behaved crossing of the tangents; for curved parts the arms may solve neither equation (`endgeometry_wrong`) or an AssertionError is raised (`endgeometry_assertion`); an open path of one line is shortened (`single_line_cut`).
* Status: Continuity of the tangents for all polygons and all chains of cuts with crossing tangents; the curvatures at the ends of curved corners hold for exact roots when a pair solves the equations; negations with witnesses for the cases the code gets wrong.
* Theorems: `Deform.corner_ends`, `Deform.corner_tangents`, `Deform.corner_inside`, `Deform.corner_curvature`, `Deform.corner_stationary`, `Deform.corner_not_stationary`, `Deform.arm_curvature`, `Deform.arm_curvature_end`, `Deform.arms_equations`, `Deform.pairs_solve`, `Deform.pairs_complete`, `Deform.first_solution`, `Deform.controldists_general`, `Deform.endgeometry_partial`, `Deform.endgeometry_wrong`, `Deform.endgeometry_assertion`, `Deform.endgeometry_line`, `Deform.corner_smooth`, `Deform.path_smooth`, `Deform.polygon_open`, `Deform.polygon_closed`, `Deform.single_line_cut`, `Deform.endgeometry_parallel`

### C124 deformer.cycloid wraps a spring around a path (partial)

* Modelled: `cycloid` (`deformer.py:365-507`). (`pyx/deformer.py`)
* Left out: Errors of `_arclentoparam_pt` (C118), the checks of `normsubpath.append`, negative numbers of loops, logging.
* Proof: The points are compared with a helix in space turned around an axis; derivatives with Mathlib; the ends with cos(n pi).
* Code against the claim: Partial: holds for the points, the smoothness, the range, the beginning and odd numbers of half loops; for even numbers of half loops (the default) the end is wrong (`cycloid_even_ends`, `cycloid_end_missing`), turnangle 90 does not give circles (`cycloid_ninety`, `cycloid_near_ninety`), sign -1 is no mirror image on curved paths (`cycloid_sign_wrong`).
* Status: Shape, smoothness, range and odd ends proved for all parameters; even numbers of half loops, turnangle 90 and sign -1 on curved paths proved to be wrong.
* Theorems: `Deform.cycloid_spring`, `Deform.cycloid_curves`, `Deform.cycloid_touches`, `Deform.cycloid_within`, `Deform.cycloid_odd_ends`, `Deform.cycloid_even_ends`, `Deform.cycloid_end_missing`, `Deform.cycloid_short`, `Deform.cycloid_ninety`, `Deform.cycloid_near_ninety`, `Deform.cycloid_sign_partial`, `Deform.cycloid_sign_wrong`

### C125 deformer.linesmoothed draws a smooth curve through the corners of a path (partial)

* Modelled: `linesmoothed` (`deformer.py:1727-1793`) on top of the model of `metapost.path` (C61, C92). (`pyx/deformer.py`, `pyx/metapost/path.py`)
* Left out: Errors inside the solver of the MetaPost path (`none`), logging.
* Proof: The knots and links are computed and the theorems about MetaPost paths are applied to every joint.
* Code against the claim: Partial: the points, the smoothness, closing and the directions at the ends hold; `atleast` has no effect (`linesmoothed_atleast`).
* Status: Everything except atleast, which has no effect; proved whenever the MetaPost path can be computed and the corners are farther apart than epsilon.
* Theorems: `Deform.linesmoothed_through`, `Deform.linesmoothed_smooth`, `Deform.linesmoothed_closed`, `Deform.linesmoothed_ends`, `Deform.linesmoothed_atleast`

### C126 deformer.parallel keeps its distance along paths of straight lines (partial)

* Modelled: `parallel.deformsubpath` (`deformer.py:901-1019`) for lines with `_get_angles`, `_path_around_corner` and `intersection`, and the connection lines of `normsubpath.join` and `close`. (`pyx/deformer.py`, `pyx/path.py`)
* Left out: Curves (C127), the intersection step, items shorter than epsilon, which `normsubpath.append` leaves out, the dictionary from the items of the result to those of the path.
* Proof: A curve of an arc lies in the cone spanned by its ends, so arcs of at most 180 degrees stay between the normals of both lines; induction over the lines.
* Code against the claim: Partial: all of it holds except that sharp outer corners fail where the path turns back (`sharp_turn_back`); with floats the corner may instead be at a distance of about 10^16.
* Status: sharp outer corners fail where the path turns back (negation proved); everything else is proved
* Theorems: `Deform.Par.parallel_line`, `Deform.Par.between_spec`, `Deform.Par.polyline_spec`, `Deform.Par.polyline_distance`, `Deform.Par.convex_outward`, `Deform.Par.corner_nearest`, `Deform.Par.around_sharp`, `Deform.Par.sharp_turn_back`, `Deform.Par.turn_back_fails`, `Deform.Par.tiny_distance`, `Deform.Par.tri_outward`

### C127 deformer.parallel of a curve follows the true parallel (partial)

* Modelled: `parallel.deformsubpathitem` for curves (`deformer.py:1043-1104`), `deformnicecurve` (1105-1190), `_distchecked` (1220-1249) and `_distcrossingparameters` (1252-1301). (`pyx/deformer.py`, `pyx/normpath.py`)
* Left out: The intersections of the line of `_distchecked` with the parallel are a parameter (assumed sound), so are the roots of the polynomials; `deformnicecurve` is modelled with a bound of the recursion (the code has none: its comment asks whether it converges), curves with arms of at least epsilon are assumed to be kept by `normsubpath.append`; the dictionary from the items of the result to those of the path.
* Proof: Induction over the recursion: `Follows` says what each item is; the true parallel is differentiated (`parallel_velocity`, `parallel_curvature`); segments of a curve have the same parallel; discrete intermediate value theorem for the crossings.
* Code against the claim: Partial: pieces get lost (`lost_parallel`), single pieces are not joined at their end (`end_not_joined`), lines which replace parts without solution are not checked, and with `lookforcurvatures=2` the search does not end (`two_endless`).
* Status: Pieces follow the true parallel; crossings sound, complete at the samples and terminating. Some pieces are lost or not joined (proved with witnesses).
* Theorems: `Deform.Par.nice_follows`, `Deform.Par.Follows.leads`, `Deform.Par.Follows.segment`, `Deform.Par.curve_parallel`, `Deform.Par.pieces_kept`, `Deform.Par.pieces_spec`, `Deform.Par.parallel_velocity`, `Deform.Par.parallel_curvature`, `Deform.Par.crossings_sound`, `Deform.Par.crossings_found`, `Deform.Par.crossings_ends`, `Deform.Par.crossings_end`, `Deform.Par.interpolation_mirrored`, `Deform.Par.two_endless`, `Deform.Par.single_piece_flags`, `Deform.Par.end_not_joined`, `Deform.Par.lost_parallel`, `Deform.Par.exWave_parallel`, `Deform.Par.distOk_sound`

### C128 Columns of graph keys: titles and symbols (partial)

* Modelled: `key.__init__` (the position), `key.paintcolumn` (`graph/key.py:50-97`) with `tile_pt` and `linealignequal_pt` of the box model (C85); the columns are those of C108. (`pyx/box.py`, `pyx/graph/key.py`, `pyx/text.py`)
* Left out: The extents of the titles are given; the scale of texts is one; the frame of the key is not modelled.  The left and right ends of the columns (their bounding boxes) are given.
* Proof: The maximum of the extents is found from the geometry of upright rectangles (`extent_title`), `linealignequal_partial` gives the horizontal position, the rest is induction over the titles.
* Code against the claim: Proved for the distances; partial for the space between titles: a title with a large depth above one with a large height overlaps with it although `dist` is positive (`titles_overlap`), because the tiling adds the largest extent and not the extents at the contact.  `columns=4` with five items gives three columns (`fewer_columns`).
* Status: Titles of different depths and heights can overlap (titles_overlap); the distance between titles is proved for equal depths or heights.
* Theorems: `Graph.Key.column_spec`, `Graph.Key.title_space`, `Graph.Key.titles_apart_partial`, `Graph.Key.titles_overlap`, `Graph.Key.fewer_columns`, `Graph.Key.column_gap`, `Graph.Key.pos_letters`, `Graph.Key.pos_numbers`, `Graph.Key.extent_title`

### C129 Parsers of TeX output remove what they should and nothing else (partial)

* Modelled: `remove_string`, `remove_pattern`, `index_all`, `pairwise`, `remove_nested_brackets` (`text.py:35-185`), `texmessage.start`, `load`, `load_def`, `load_graphics`, `pattern` (`text.py:207-376`); the regular expressions for files are written as functions. (`pyx/text.py`)
* Left out: `texmessage.end`, `no_file` and the regular expressions of the warnings; `os.path.isfile` is a parameter.
* Proof: The positions of brackets are shown to be those found by a scanner from left to right (`quotes_joint`), the sorted list is the reversed list of the brackets, and the loop from the right computes a function that agrees with the one from the left for balanced strings (`scan_balanced`). `load_partial` follows by induction over the brackets.
* Code against the claim: Proved for `remove_*`, `load_def`, `pattern`, `start`. `load` is proved for balanced messages without quotes and empty brackets; without balance text outside of brackets can get lost (`load_loses_text`), and a line broken between a bracket and a quote prevents the removal (`broken_before_quote`). `load_graphics` removes only the first graphics file and removes unrelated text (`graphics_second_left`, `graphics_loses_text`).
* Status: load: messages with quotes or unbalanced brackets are left out (text can get lost, witness); load_graphics violates the claim (witnesses).
* Theorems: `TexMsg.removeString_spec`, `TexMsg.removePattern_nl`, `TexMsg.removePattern_plain`, `TexMsg.removeNested_spec`, `TexMsg.load_partial`, `TexMsg.load_unbracketed`, `TexMsg.load_loses_text`, `TexMsg.broken_before_quote`, `TexMsg.accumulated_spec`, `TexMsg.parsers_return`, `TexMsg.loadDef_sound`, `TexMsg.loadDef_complete`, `TexMsg.graphics_second_left`, `TexMsg.graphics_loses_text`, `TexMsg.warnAll_spec`, `TexMsg.pattern_endless`, `TexMsg.start_spec`

### C130 Texts get the pages TeX made for them, and TeX errors are noticed (partial)

* Modelled: `_execute`, `do_start`, `do_preamble`, `do_typeset`, `do_finish`, `preamble`, `text_pt` (`text.py:1061-1317`), `go_typeset`, `go_finish`, `do_start` of the TeX and LaTeX engines (`text.py:1360-1378, 1420-1449`), `MultiEngine` (`text.py:1451-1513`), `readdvipage`, `dvicanvas` (`text.py:857-865`), page numbers in `readpage` (`dvifile.py:403-433`), `PyXBoxPattern`, `dvi_pattern`. TeX is a function from all commands sent so far to its output, whether it came in time, and the DVI pages it wrote. (`pyx/dvi/dvifile.py`, `pyx/text.py`)
* Left out: Threads, files, chroot, `usefiles`, `_cleanup`, the wording of the exceptions, attributes of texts (applied before), positions of the boxes; digits are ASCII digits, floats are rational numbers. After a wrong page number the DVI file is taken as unusable (the code goes on reading within the page).
* Proof: An invariant over all sequences of calls relates the commands sent, the page counter and the list of texts (`Inv.run`); `\ProcessPyXBox` is assumed to put one page per text into the DVI file (`Ships`). The messages are decomposed by the functions of C129.
* Code against the claim: Proved for all sequences of calls. That each text shows its own page holds only if no text failed (`own_pages_partial`): a text which failed has taken a page, so that all later texts show the page of their predecessor, and writing raises `ValueError` only once (`failed_text_shifts`, in general `pages_by_count`); with `texipc` every later text fails (`ipc_lost`). If the end fails, all texts are lost (`failed_end`). A refused preamble is repeated later (`refused_preamble`), and preambles get lost after a failed restart (`lost_preambles`).
* Status: Each text shows its own page only if no text failed before (own_pages_partial); the shift after a failed text is proved in pages_by_count and failed_text_shifts.
* Theorems: `TexEngine.text_accepted`, `TexEngine.leftover_spec`, `TexEngine.float_spec`, `TexEngine.error_raised`, `TexEngine.marker_apart`, `TexEngine.numbered`, `TexEngine.preamble_late`, `TexEngine.done_stays`, `TexEngine.state_mono`, `TexEngine.pages_by_count`, `TexEngine.own_pages_partial`, `TexEngine.failed_end`, `TexEngine.ipc_own`, `TexEngine.ipc_lost`, `TexEngine.failed_text_shifts`, `TexEngine.failed_text_ipc`, `TexEngine.restart_inputs`, `TexEngine.restarts`, `TexEngine.refused_preamble`, `TexEngine.lost_preambles`, `TexEngine.done_accepted`

### C131 Texts in Type 1 fonts have their glyphs at the same places in all output formats (partial)

* Modelled: `T1text_pt` (`font.py:446-761`), `PDFfont.write` (`font.py:174-209`), `PDFencoding.getvector`, the vector of `PSreencodefont` (`font.py:98-100, 289-295`), `SVGT1mapping` and `merge` (`font.py:319-373`), `resolveligatures`, `resolvekernings`, widths and ascent/descent of `AFMfile` (`afmfile.py:1376-1411, 1428-1441`). Glyph names and characters are any type, metrics are functions. (`pyx/font/afmfile.py`, `pyx/font/font.py`)
* Left out: Registration of resources, selection of fonts, colours and opacity, parsing of AFM files, the six decimals of `%f`. The order of a Python set is a list without repetitions. `outputSVGattrs`, which is called for slanted texts in SVG, does not exist.
* Proof: Small interpreters for `show`/`rmoveto`, `TJ` and `tspan` are run on the output and compared with a recursion over the glyphs, for which the position of glyph k is a sum (`place_getElem`). PDF is reduced to PostScript (`psOf`). The encodings have the invariant `Good`.
* Code against the claim: Proved for all texts, except: PDF widths are truncated (`pdf_error` has the bound, `pdf_drift` an example); a ligature may be left if a replacement is itself the second glyph of a ligature (`ligature_left`, `ligatures_done_partial`); the path of a slanted text is not slanted (`slant_lost`), so `textaspath` output differs; without a descender the `/Descent` is the top of the font bounding box (`descent_is_top`, `descent_partial`); in an SVG font a code and a glyph name may get the same character (`svg_shared`).
* Status: Positions, encodings and strings are proved for all texts. Negations with witnesses: ligature_left, pdf_drift, slant_lost, descent_is_top, svg_shared.
* Theorems: `T1Text.ligatures_spec`, `T1Text.ligatures_done_partial`, `T1Text.ligature_left`, `T1Text.path_positions`, `T1Text.ps_positions`, `T1Text.pdf_positions`, `T1Text.svg_positions`, `T1Text.bbox_end`, `T1Text.widths_spec`, `T1Text.pdf_error`, `T1Text.pdf_drift`, `T1Text.slant_same`, `T1Text.slant_lost`, `T1Text.strings_read`, `T1Text.encodings`, `T1Text.vector_inverse`, `T1Text.svg_characters`, `T1Text.svg_shared`, `T1Text.create_spec`, `T1Text.descent_is_top`, `T1Text.descent_partial`

### C132 Text attributes align, shift and size texts as asked for, in whichever order they are given (partial)

* Modelled: The `apply` methods of all text attributes (`text.py:389-615`), what the macros `ProcessPyXBox` etc. do with boxes and registers (`text.py:1195-1208`), the order of the attributes (`text.py:1295-1303`, `attr.mergeattrs` as in C09), the corners of the box (`text.py:842-845`), `size` and `escapestring` (`text.py:1847-1875`). (`pyx/attr.py`, `pyx/text.py`)
* Left out: TeX itself: an expression is given by what TeX does with it, a function from the state (size, mode, alignment registers) to a box; the content is a box which is any function of size and mode, a paragraph is given by its first and last line. The transformations and fill styles of a text are in other properties.
* Proof: The computations respect the part of the state which matters (`Resp`); the merged list is sorted by the rank of the classes (`merged_sorted`), by which shifts are outermost. `escapestring` is inverted by a small reader of TeX commands.
* Code against the claim: Proved, except: an invalid base line of a `parbox` makes the `ValueError` but does not raise it, and the word `None` is typeset (`invalid_baseline`); an alignment of the lines after `halign` drops the alignment of the box (`flush_drops_box`); the last size given does not always win (`last_size_lost`).
* Status: invalid base lines lose the text; flushhalign after halign drops the box alignment; the last size does not always win
* Theorems: `TextAttr.shifts_lower`, `TextAttr.valign_box`, `TextAttr.halign_last`, `TextAttr.corner_anchor`, `TextAttr.halign_default`, `TextAttr.texts_independent`, `TextAttr.parbox_width`, `TextAttr.parbox_real`, `TextAttr.parbox_baseline`, `TextAttr.invalid_baseline`, `TextAttr.content_env`, `TextAttr.flush_drops_box`, `TextAttr.last_size_lost`, `TextAttr.size_index`, `TextAttr.escape_spec`, `TextAttr.escape_injective`

### C133 Texts of the UnicodeEngine show all their characters one after the other (partial)

* Modelled: `unicodetextbox_pt.__init__` (`text.py:1600-1632`) and the attributes part of `UnicodeEngine.text_pt` (`text.py:1742-1759`). The font is its width function, which is `none` for missing characters, and the extents of the minus sign. (`pyx/text.py`)
* Left out: Fonts (C131), the extraction of the minus sign from the outlines of `=`, the box and its transformations.
* Proof: Induction over the fragments and pieces; the fragments joined by hyphens are the text (`joined_split`).
* Code against the claim: Proved, except that the engine refuses all text attributes (`attrs_refused`): math mode, for which the minus signs are made, is not available, and neither are the default attributes of axis labels. `preamble` and `reset` raise `TypeError` since `NotImplemented` is not an exception (reading).
* Status: the engine refuses all text attributes, including mathmode
* Theorems: `UniText.stack_spec`, `UniText.pieces_follow`, `UniText.text_advance`, `UniText.text_content`, `UniText.attrs_refused`, `UniText.minus_centred`

### C134 Symbols, impulses, texts, arrows, rectangles and colours show their data points (partial)

* Modelled: The symbols (`style.py:395-432`), `drawpoint` of `symbol`, `impulses`, `text`, `arrow` and `rect` (`style.py:496-499, 701-719, 854-871, 914-936, 958-980`), `_keygraphstyle.color` and the image of the key (`style.py:149-157, 2075-2110`), `graphx.vpos_pt`. Positions in the graph are functions from the dimensions; the graph is any map of them to the canvas. (`pyx/graph/graph.py`, `pyx/graph/style.py`)
* Left out: Attributes and layers; the selection of attributes is in C10, the columns of the data in C111; geodesics are given by their ends.
* Proof: Case distinctions; areas by the shoelace formula and bounds of pi. A rectangle is compared with the intersection of its ranges with the graph.
* Code against the claim: Proved, except: impulses of points outside the graph are not drawn at all (`impulse_lost`); rectangles which exceed the graph on both sides are cut at one side only (`rect_overhang`, `rect_partial`); on reversed axes rectangles exceeding the graph vanish (`rect_reversed`); `rect` reads the column `color` whatever its `colorname` is (`rect_colorname`); the key is off by up to one step and never shows the last colour (`key_end`, `key_colour_partial`).
* Status: impulses of points outside are lost; rectangles exceeding the graph on both sides or on reversed axes are wrong; the key is off by one step
* Theorems: `Points.inside_iff`, `Points.symbols_spec`, `Points.symbol_centred`, `Points.polygon_area`, `Points.lines_length`, `Points.circle_area`, `Points.impulse_spec`, `Points.impulse_part`, `Points.impulse_lost`, `Points.text_spec`, `Points.rect_partial`, `Points.rect_overhang`, `Points.rect_reversed`, `Points.rect_colorname`, `Points.colour_param`, `Points.key_pixels`, `Points.key_colour_partial`, `Points.key_end`, `Points.arrow_spec`, `Points.arrow_drawn`

### C135 AFM files give the metrics which are written in them (partial)

* Modelled: All of the reader (`afmfile.py:868-1374`): conversions, states, header, directions, character metrics, kerning data, tracks, pairs, composites, files line by line. `float`, `int` and `int(…, 16)` are parameters. (`pyx/font/afmfile.py`)
* Left out: Which exception is raised; `isfixedv` after reading. White space is that of ASCII.
* Proof: A file is specified as text: words joined by any white space, any texts for numbers (`Printer`), sections (`Sec`, `Written`). Words and entries are read back by induction over the text; sections by induction over the lines; `file_spec` joins them.
* Code against the claim: Proved for fonts with one direction (`file_spec`), track kerning (`tracks_spec`), fields of the second direction (`direction_spec`), kerning pairs of the second direction (`section_second`, `section_second_twice`). Refuted: files with `MetricsSets` cannot be read (`metricssets_fails`); a comment ends the second direction (`comment_ends_direction`); composites are never kept (`composites_lost`); comments between character metrics are errors (`comment_in_chars`); files cut off are accepted (`truncated`). Sections of kerning pairs of the second direction are proved on their own (`section_second`) and are not part of `file_spec`.
* Status: One direction, tracks and fields of the second direction are proved; MetricsSets, comments in some places and composites are refuted.
* Theorems: `Afm.glyph_line`, `Afm.glyph_roundtrip`, `Afm.chars_spec`, `Afm.pair_line`, `Afm.pairs_spec`, `Afm.header_spec`, `Afm.file_spec`, `Afm.tracks_spec`, `Afm.direction_spec`, `Afm.metricssets_fails`, `Afm.comment_ends_direction`, `Afm.direction_two`, `Afm.comment_in_chars`, `Afm.truncated`, `Afm.composites_lost`, `Afm.codes_not_names`, `Afm.parseHex_iff`, `Afm.pair_second`, `Afm.pairs_second`, `Afm.section_second`, `Afm.section_second_twice`

### C136 PFM files give the metrics at the offsets of the format (partial)

* Modelled: All of `font/pfmfile.py` with the formats of `struct.unpack`, seeking and reading behind the end of the file, the table of ANSI glyphs (all 224 entries in their order), Python's negative indices. (`pyx/font/pfmfile.py`)
* Left out: The bounding box in `writePDFfontinfo` (a regular expression on the font program), the encoding of the font program (a parameter).
* Proof: The specification has the byte offset of every field from the description of the format; a record and a table of offsets are compared by computation, values by a general lemma about `unpack`. Tables by induction over their rows.
* Code against the claim: Proved, except for the names of glyphs which are in the table of ANSI glyphs more than once: spaces and hyphens get the characters 160 and 173 (`ansi_space`, `space_lost`), and that widths of glyphs before the first character are those of others (`width_before_first`).
* Status: Spaces, hyphens and bullets of ANSI fonts have other codes, and glyphs before the first character have wrong widths: both refuted; the rest is proved.
* Theorems: `Pfm.read_iff`, `Pfm.read_spec`, `Pfm.width_spec`, `Pfm.width_before_first`, `Pfm.width_after_last`, `Pfm.ansi_code`, `Pfm.ansi_space`, `Pfm.space_lost`, `Pfm.encoding_code`, `Pfm.kern_spec`, `Pfm.kernings_spec`, `Pfm.text_width`, `Pfm.flags_spec`, `Pfm.info_spec`

### C137 Encoding vectors are read as laid out, and stripped fonts keep the wanted part (partial)

* Modelled: The tokenizer on strings (`reader.py:98-156`), `ENCfile` (`encfile.py:29-51`), `T1File._encoding` (`t1file.py:684-706`) with the exceptions of each, the text part of `getstrippedfont` (`t1file.py:1000-1003,1024-1035`): entries, unified whitespace, removed `UniqueID`, `rstrip` (`written`). (`pyx/dvi/encfile.py`, `pyx/font/t1file.py`, `pyx/reader.py`)
* Left out: `int` of tokens with underscores or other than ASCII digits, whitespace of regular expressions beyond ASCII.
* Proof: The specification says how tokens lie in a text (`Gap`, `Token`, `Read`). `gettoken_iff` characterises one token; `encfile_iff`, `encoding_iff` and `standard_iff` follow by induction over the tokens; the rounds of the loops are bounded by the length of the text. `strip_spec` lays the written entries out again; `unify_read` shows that tokens do not change by an induction over the text with the whitespace in front of it. `written_encoding` puts all steps together: the encoding depends on the text behind the first `/Encoding` only (`encoding_moved`), and `UniqueID` at the beginning of a line in front of it goes without a trace (`uid_removed`).
* Code against the claim: Proved. Files PostScript would understand are refused if they end behind `def` (`no_newline`), if `]` is followed directly by `def` (`bracket_def`) or with codes in another base (`radix_fails`); refused files give `NameError`s (`wrong_length`); removing a `UniqueID` may turn the following line into a comment (`uid_comment`); if no encoded glyph is wanted the text has no encoding which could be read (`strip_none`).
* Status: The three readers are characterised by iff theorems, and the text of stripped fonts is followed from reading to writing (written_encoding). Partial: some valid PostScript layouts are refused, and removing UniqueID from a comment may remove a line (theorems).
* Theorems: `Encoding.gettoken_iff`, `Encoding.encfile_iff`, `Encoding.wrong_length`, `Encoding.no_newline`, `Encoding.bracket_def`, `Encoding.encoding_iff`, `Encoding.standard_iff`, `Encoding.strip_spec`, `Encoding.unify_read`, `Encoding.unify_encoding`, `Encoding.strip_unify`, `Encoding.uid_spec`, `Encoding.uid_comment`, `Encoding.radix_fails`, `Encoding.strip_none`, `Encoding.isStart_iff`, `Encoding.int_sign`, `Encoding.uid_removed`, `Encoding.encoding_moved`, `Encoding.written_encoding`, `Encoding.written_encoding_plain`

### C138 The output of TeX is read completely and in time, in all interleavings (proved)

* Modelled: `MonitorOutput` (`text.py:623-795`) and the calls of it in `_execute` (`text.py:1080-1103`) as a transition system: program counters and local variables of the main thread and the reading thread, the queue `_expect` of size one, the event `_received`, the queue `_output`, and TeX, which answers to each chunk it is told with some lines, with bounded pipes to and from it. One action is one access to shared data. `_wait` as a function of the times at which there is the event. (`pyx/text.py`)
* Left out: Lines are abstract (a line contains a marker or not); `join` has no timeout in the transition system; TeX ends only when it is told to; `read` of the `\r` characters; interrupted system calls.
* Proof: `act` gives the state after an action; `step_of_act` turns it into a relation. Four invariants are proved by cases on the step: the flow of lines (`InvA`), the end of TeX (`InvT`), where the marker is (`InvE`), what the results of `read` contain (`InvR`). Deadlock freedom is by cases on the program counters; `work` is a weight which decreases with each action.
* Code against the claim: Proved for executions without timeouts. With timeouts nothing is lost (`read_all_timeout`), but the next `wait` may succeed because of the late marker of the old expression (`stale_marker`), and the next `expect` may raise `queue.Full` (`full_after_timeout`). With `wait` 0 and `showwait` not 0, waiting is never successful (`wait_zero`). Without the thread there are deadlocks (`thread_needed`).
* Status: All interleavings of the main thread, the reading thread and TeX with bounded pipes; lines are abstract.
* Theorems: `Monitor.never_fails`, `Monitor.all_lines`, `Monitor.read_marker`, `Monitor.read_all`, `Monitor.no_deadlock`, `Monitor.no_infinite`, `Monitor.maximal`, `Monitor.read_all_timeout`, `Monitor.waiting_spec`, `Monitor.waiting_true`, `Monitor.stale_marker`, `Monitor.full_after_timeout`, `Monitor.thread_needed`, `Monitor.wait_zero`

### C139 Intersections of curves end, are close to both curves, and crossings of the replacing lines are not lost (partial)

* Modelled: `intersect` for lines and curves in any combination with its recursion (`normpath.py:204-308, 559-570`), the test of the control boxes, `_split` when intersecting, with its conditions to replace a half by a line (`normpath.py:446-469`), and the four `subparamtoparam` (`normpath.py:740-780`). The intersection of two lines is that of C43, the solution of the cubic equation that of C62 and C118. (`pyx/normpath.py`)
* Left out: Coordinates are real numbers. A bound of the depth is an argument; the result does not depend on it (`cross_mono`).
* Proof: `flat_close`: components along and across the chord of the difference of a curve point and the line point with the parameter of the control polygon; each edge of the polygon exceeds its component along the chord by less than twice epsilon. Soundness and completeness by induction on the depth; the lines which represent a curve are in its control box, so that the test of the boxes loses nothing. End of the recursion: edges are halved with each step; short parts are replaced unless they end where they begin, and three nested such parts exist only for a point (`shut_point`).
* Code against the claim: Partial: soundness and completeness need that the misprint in line 228 does not matter (`Fair`, see C43) and that the cubic equations which are asked have no double root which is solved wrongly (`Solved`, see C62). Completeness is with respect to the replacing lines: a point where a curve touches a line can be missed although the curve is closer than epsilon to the lines (`touching_missed`). For a curve which is just a point the recursion does not end (`point_endless`); such curves are not kept by `normsubpath.append`.
* Status: Soundness and completeness assume that the misprint of C43 and the double roots of C62 do not matter; completeness is with respect to the replacing lines, touching points can be missed.
* Theorems: `NormPath.Cross.flat_close`, `NormPath.Cross.cross_sound_partial`, `NormPath.Cross.cross_complete_partial`, `NormPath.Cross.cross_nonempty_partial`, `NormPath.Cross.sides_found_partial`, `NormPath.Cross.settles`, `NormPath.Cross.cross_total`, `NormPath.Cross.cross_mono`, `NormPath.Cross.point_endless`, `NormPath.Cross.touching_missed`

### C140 Intersections of paths: none is invented, none is lost but for close ones, and none is reported twice (partial)

* Modelled: `normsubpath.intersect` (`normpath.py:1101-1205`) with the offsets of the items, both orders, `closepoints` for open and closed sub-paths with its inner loops which join short segments, the merging of close points, the set of keys and the result, and `normpath.intersect` (`normpath.py:1763-1780`). `segments` and `join` are those of C45. (`pyx/normpath.py`)
* Left out: Intersections of two items are a parameter (see C139). `min(self.epsilon, other.epsilon)` for an epsilon which is None is a TypeError and not modelled. The inner loop for closed sub-paths runs round without end if all segments together are short; a bound is an argument. Coordinates are real numbers.
* Proof: Soundness: `report` only selects from the sorted list. A pair of `closepoints` has its points closer than epsilon since the joined segments are one skipped line between them (`shortRun_near`). Nothing lost: a merged index is smaller and reached by a chain of close pairs, by induction on the list of pairs; `kept_iff` says exactly which indices are kept. No duplicates: equal pairs are neighbours in both orders, and the segment between equal parameters is short (`twins`). No exceptions: an invariant of `segments` for connected lines: the current segment ends where the next line begins.
* Code against the claim: Partial: completeness needs one of the sub-paths to be open (`complete_first`, `complete_second`, `lonely_found_first`, `lonely_found_second`; steps are then close on that one), closeness on both, duplicates and exceptions only for two open sub-paths (for closed ones `segments` joins the first and the last segment and forgets skipped lines); exceptions only for lines. Merging is not transitive: of three crossings in a row with neighbours close the first two are both reported although they are close, and the third one is dropped (`chain_double`).
* Status: Soundness for all sub-paths; completeness if one of the sub-paths is open; duplicates and exceptions for open ones. Merging of close intersections is not transitive (chain_double).
* Theorems: `NormPath.SubCross.intersect_sound`, `NormPath.SubCross.intersect_complete_partial`, `NormPath.SubCross.lonely_found`, `NormPath.SubCross.intersect_nodup_partial`, `NormPath.SubCross.intersect_total_partial`, `NormPath.SubCross.vertex_once`, `NormPath.SubCross.kept_iff`, `NormPath.SubCross.closepoints_near`, `NormPath.SubCross.one_per_cluster_partial`, `NormPath.SubCross.chain_double`, `NormPath.SubCross.mem_pathIntersect`, `NormPath.SubCross.complete_first`, `NormPath.SubCross.complete_second`, `NormPath.SubCross.lonely_found_first`, `NormPath.SubCross.lonely_found_second`

### C141 Rectangles, polylines and polygons of an SVG file are drawn as SVG says (proved)

* Modelled: The `rect`, `polyline` and `polygon` elements (`svgfile.py:425-461`), with the four quarters of the circle, `split` of a closed path at its begin, `join` and `closepath`; `path.rect_pt`. (`pyx/normpath.py`, `pyx/path.py`, `pyx/svgfile.py`)
* Left out: Circle and ellipse are exact (C52 bounds the approximation); that the quarters of the arc length of an ellipse are the quarters of the angle is by symmetry and not derived from `arclen_pt`. `circle`, `ellipse` and `line` elements call one constructor (C52).
* Proof: Set of points against a distance to the inner rectangle in units of the radii; quadrants of the circle by arc cosine.
* Code against the claim: Holds (radii which are all below 1e-10 up to 1e-10), for the exact circle.
* Status: For the exact circle. Radii which are all below 1e-10 are drawn as none, which is right up to 1e-10 (rect_tiny).
* Theorems: `Svg.Shape.rounded_loop`, `Svg.Shape.rounded_outline`, `Svg.Shape.plain_edge`, `Svg.Shape.rect_rounded`, `Svg.Shape.rect_plain`, `Svg.Shape.rect_zero_radius`, `Svg.Shape.rect_tiny`, `Svg.Shape.poly_spec`, `Svg.Shape.polygon_loop`

### C142 Colors and line styles of an SVG file are read as SVG says (partial)

* Modelled: `toColor` with its table and both patterns (`svgfile.py:89-90, 283-346`), `rgbfromhexstring` and the range checks of `rgb` (`color.py:116-126, 173-179`), `floatAttr` and `pathAttrs` (`svgfile.py:350-385`), output of `dash` without relative lengths (`style.py:148-158`). (`pyx/color.py`, `pyx/style.py`, `pyx/svgfile.py`)
* Left out: White space is ASCII white space. `transform` is C99. Paint servers.
* Proof: Texts are built from parts and read back, for all digit strings; the table is compared with a separately written table of SVG 1.1 by evaluation (the quantifier over keywords is finite).
* Code against the claim: The dash pattern is a generator: it is empty when it is written a second time (`dash_lost`), and errors in it are raised at output (`dash_none`). The miter limit is scaled as a length (`miter_scaled`). `currentColor` is not painted (`currentColor_lost`), values SVG clips are refused (`refused_colors`), `inherit` for a line cap is a KeyError (`inherit_cap`).
* Status: Violated for dash patterns written twice, miter limits, currentColor and clipped values; proved otherwise.
* Theorems: `Svg.Paint.keyword_color`, `Svg.Paint.rgb_color`, `Svg.Paint.percent_color`, `Svg.Paint.hex_color`, `Svg.Paint.short_color`, `Svg.Paint.inherit_color`, `Svg.Paint.length_text`, `Svg.Paint.styles_mem`, `Svg.Paint.unknown_cap`, `Svg.Paint.dash_first`, `Svg.Paint.dash_again`, `Svg.Paint.dash_lost`, `Svg.Paint.dash_none`, `Svg.Paint.miter_scaled`, `Svg.Paint.currentColor_lost`, `Svg.Paint.refused_colors`, `Svg.Paint.inherit_cap`, `Svg.Paint.readPart_sound`, `Svg.Paint.readRgb_sound`

### C143 Fill patterns paint what their parameters say (partial)

* Modelled: `pattern` with its steps, box and matrix for PostScript, PDF and SVG (`pattern.py:36-175, 331-340, 365-387`), `hatched` and `crosshatched` with their sizes (`pattern.py:183-310`), `__call__` of all three; `enlarge` and `lowrestuple_pt` of boxes. (`pyx/bbox.py`, `pyx/pattern.py`)
* Left out: The content is a set of points with a box. Registration of resources and the operators which select the pattern are in C33. Formatting of numbers (`%g`, `%f`). Calling hatched patterns: styles are exclusive ones (no `clear`).
* Proof: What a tiling paints is a separate definition: clipped cells at all multiples of the steps. Rotations by the addition theorem; cells by floor.
* Code against the claim: A box of its own is rounded in PDF and clips differently (`ps_pdf_differ`). SVG puts the corner of the box at the origin: the pattern is shifted (`svg_shift`, `svg_differs`), the same only for special boxes (`svg_same`); hatched patterns are refused by SVG (`svg_hatched`). `pattern.__call__` has its conditions inverted: it raises an exception or ignores what is given (`call_useless`, `call_fails`).
* Status: Violated for calls of patterns, given boxes in PDF and SVG; proved otherwise.
* Theorems: `Pattern.hatched_strips`, `Pattern.crosshatched_grid`, `Pattern.cells`, `Pattern.ps_pdf`, `Pattern.ps_pdf_differ`, `Pattern.zero_step`, `Pattern.svg_shift`, `Pattern.svg_same`, `Pattern.svg_differs`, `Pattern.svg_hatched`, `Pattern.sizes_ratio`, `Pattern.hatch_call`, `Pattern.call_useless`, `Pattern.call_fails`

### C144 Fields of PDF forms are what was asked for (partial)

* Modelled: Tables of flags, `_pdfflags`, `selectflags`, `_sizetrafo`, rectangles of all fields, `_simplestring`, `PDFbuttonlist` and `PDFcheckboxfield`, default texts of text fields with `vcenter`, and the list `fillstyles` of contexts (`pdfextra.py`, `canvas.py:217-225`, `pdfwriter.py:408-412`). (`pyx/canvas.py`, `pyx/pdfextra.py`, `pyx/pdfwriter.py`)
* Left out: Rotations (the documentation calls them undefined), pictures of buttons, the resources of fields, `_topt` (C05), the list of annotations of pages (C72), default texts which are not centred.
* Proof: Flags by induction with bits of numbers against a separate copy of the tables of the PDF reference; rectangles by cases of signs; strings by the reader for PDF strings of C72; default texts by splitting and joining.
* Code against the claim: Partial: strings are written as they are, so a single parenthesis or a backslash spoils them (`string_read_partial`, `string_wrong`). Buttons are on the wrong side on mirrored canvases (`button_mirrored`). Values which are not letters and digits only may collide, and the value of the field is then no name of a button (`buttons_wrong`). Empty lines are lost, and a text of line ends only is an IndexError (`texts_wrong`, `texts_fail`). A text field after any canvas with a fill style is a TypeError, even if that canvas has ended (`field_fails`, `styles_leak`).
* Status: names with single parentheses or backslashes, mirrored canvases, and text fields after fill styles go wrong in the code; witnesses are proved
* Theorems: `Form.flag_bits`, `Form.select_some`, `Form.select_value`, `Form.field_place`, `Form.button_place`, `Form.button_mirrored`, `Form.string_read_partial`, `Form.string_wrong`, `Form.buttons_spec`, `Form.buttons_wrong`, `Form.button_off`, `Form.texts_lines`, `Form.texts_fail`, `Form.texts_wrong`, `Form.centred`, `Form.field_fails`, `Form.styles_leak`, `Form.field_plain`

### C145 Output goes to the file it was asked for, and nowhere else (proved)

* Modelled: `_outputstream` and the four methods writing files, `writetofile`, `_paperformatfromstring` and the formats (`document.py`), `_wrappedindocument` and the guessing of `writeGSfile` (`canvas.py`). (`pyx/canvas.py`, `pyx/document.py`)
* Left out: Opening a file always succeeds; the writers are any bytes with success or exception. Running Ghostscript. Other attributes of the class `paperformat`. Letters are ASCII.
* Proof: The place of the output is a separate relation; names by suffixes of lists, keywords by induction over the dictionary.
* Code against the claim: The old content of a file is lost if the writer raises an exception, for example for an EPS or SVG file of several pages (`old_content_lost`). With `x` and `page_x` both given the last one wins (`wrap_both`). A5, A1 and A0 are not the sizes of ISO 216 (`iso_formats`).
* Status: opening of files is assumed to succeed
* Theorems: `Output.write_goes`, `Output.write_nowhere`, `Output.goes_unique`, `Output.script_kept`, `Output.old_content_lost`, `Output.one_suffix`, `Output.writetofile_format`, `Output.writetofile_other`, `Output.wrap_write`, `Output.wrap_page`, `Output.wrap_both`, `Output.gs_spec`, `Output.paper_any_case`, `Output.papers_halve`, `Output.iso_formats`

### C146 Ticks of an axis along a path are where the axis position says, and the base path runs between them (partial)

* Modelled: `pathpositioner` (`graph/axis/positioner.py`) for a path of one sub-path of lines, through the models of `arclentoparam`, `split`, `at` and `rotation`; the methods of `anchoredaxis` for one position and the attributes of graphs for them. (`pyx/graph/axis/axis.py`, `pyx/graph/axis/positioner.py`, `pyx/graph/graph.py`)
* Left out: Curves, several sub-paths, epsilon; the methods for grid and base paths of axes.
* Proof: Positions by the arc length model of C46, base paths by the stretches of C45, their length by additivity.
* Code against the claim: Partial: with only one end given, closed paths fail: with the upper end the base path is the whole path, with the lower end there is an IndexError (`base_closed_wrong`). `vtickpoint` of axes always raises a TypeError, and two shortcuts are other methods (`vtickpoint_wrong`).
* Status: paths of lines; closed paths with one end given and the methods vtickpoint are wrong (negations proved)
* Theorems: `Axis.Along.tick_point`, `Axis.Along.tick_direction`, `Axis.Along.param_mono`, `Axis.Along.base_open`, `Axis.Along.base_closed`, `Axis.Along.base_closed_exists`, `Axis.Along.base_closed_wrong`, `Axis.Along.methods_agree`, `Axis.Along.shortcuts_right`, `Axis.Along.vtickpoint_wrong`

### C147 Bars with changing attributes get the attributes of their number (proved)

* Modelled: `changebar` and `bar` in two dimensions (`graph/style.py`), with `selectattrs` and `changelist` of `attr.py` and the conversion of the attributes in `canvas.fill`. (`pyx/attr.py`, `pyx/canvas.py`, `pyx/graph/style.py`)
* Left out: How attributes are merged and drawn (C09, C34); the geodesics of the graph are lines between the corners.
* Proof: Induction over the values; the selected numbers are a separate list.
* Code against the claim: A list of attributes which is not cyclic and too short is an exception in `canvas.fill` (`short_list_fails`), whereas other styles then do not draw.
* Status: two-dimensional bars; too short lists which are not cyclic raise an exception (finding)
* Theorems: `Style.ChangeBar.changebar_fills`, `Style.ChangeBar.changebar_cyclic`, `Style.ChangeBar.changebar_refused`, `Style.ChangeBar.same_shapes`, `Style.ChangeBar.visible_iff`, `Style.ChangeBar.short_list_fails`

### C148 SVG files are well-formed and contain what was drawn (proved)

* Modelled: `SVGGenerator` and the writing of the file in `SVGwriter` (`svgwriter.py:50-55, 83-233`), and the methods of Python's `XMLGenerator` it is based on, with `escape` and `quoteattr`. (`pyx/svgwriter.py`)
* Left out: UTF-8; the passing on of foreign SVG files (`passthrough`); the attributes of the root element are any; which elements are drawn for which object (C120).
* Proof: The grammar of XML is a separate relation between trees and strings, with a decoder of references; the output of the generator is shown to be in this relation by induction over the tree, with an invariant for the pending end of the last tag.
* Code against the claim: A resource with a link (a bitmap in a pattern) makes the file fail if the page has no link itself (`image_in_pattern_fails`).
* Status: everything the generator is called with by PyX itself; a bitmap in a pattern may fail (finding)
* Theorems: `Svg.Write.file_wellformed`, `Svg.Write.write_iff`, `Svg.Write.prefixes_declared`, `Svg.Write.escape_data`, `Svg.Write.quoteattr_value`, `Svg.Write.emit_block`, `Svg.Write.emit_inline`, `Svg.Write.image_in_pattern_fails`

### C149 PostScript files have the structure their comments announce (partial)

* Modelled: `pswriter.py` registry, definitions, information comments, `EPSwriter` and `PSwriter` (`pswriter.py:28-263`), the inclusion of EPS files (`epsfile.py:322-341`), the resources registered by texts (`font.py:34-156, 536-571`) and the options. (`pyx/epsfile.py`, `pyx/font/font.py`, `pyx/pswriter.py`, `pyx/svgwriter.py`)
* Left out: What pages draw is any text (C118 and others); the numbers of `%g` and the date are parameters; names of reencoded and slanted fonts are shown by their parts. Read-back is by a written-down reader of the structuring conventions with nesting of documents, fonts and resources and with data of an announced number of lines.
* Proof: Lines are those of C94 (all three line ends). Texts are composed of lines; the sections of the reader are computed by lemmas for plain lines, section lines and balanced inclusions (inductive predicate `Body`). The round trip of the bounding box uses the theorem of C94. Registry by induction from the end with the order of first registration.
* Code against the claim: An included EPS file without a final line end hides the end of the inclusion: the following pages are lost for a reader of the structure (`embed_unended_fails`). A title (or page name) with a line end is executed (`title_fails`). The EPS file of an empty page has no bounding box and is refused by `epsfile` (`empty_eps_fails`). The old names of options raise NameError (`old_options_fail`), and `meshasbitmap` never works in PostScript, the resolution not being stored (`mesh_bitmap_fails`). `mergeregistry` (unused) refers to an attribute which does not exist.
* Status: Proved for titles and names without line ends and included files with a final line end; otherwise, and for old option names and meshes as bitmaps, refuted with witnesses.
* Theorems: `PSFile.ps_sections`, `PSFile.ps_pages`, `PSFile.ps_count`, `PSFile.ps_bbox`, `PSFile.papers_spec`, `PSFile.embed_body`, `PSFile.definition_body`, `PSFile.font_body`, `PSFile.eps_sections`, `PSFile.eps_one_page`, `PSFile.own_eps`, `PSFile.eps_roundtrip`, `PSFile.registry_spec`, `PSFile.needs_before`, `PSFile.fonts_before`, `PSFile.fonts_complete`, `PSFile.embed_unended_fails`, `PSFile.title_fails`, `PSFile.empty_eps_fails`, `PSFile.options_partial`, `PSFile.old_options_fail`, `PSFile.mesh_bitmap_fails`, `PSFile.font_file_before`, `PSFile.trunc_spec`

### C150 Time axes place moments in proportion to elapsed time (partial)

* Modelled: `timeaxis.convert`, its construction and range (`timeaxis.py:32-53`, `axis.py:65-111`), `timetick.merge`, `timetexter.labels`. (`pyx/graph/axis/axis.py`, `pyx/graph/axis/timeaxis.py`)
* Left out: Moments are counted in microseconds, without time zones; the quotient of two integers is exact (the code divides by a float). The partition of a time axis is that of `axis._create` (C82 and others) with manual ticks; `strftime` is a parameter.
* Proof: The normalised triple of a difference gives back the number of microseconds; the range by induction from the end of the column.
* Code against the claim: The direction is ignored: a time axis never runs backwards (`reverse_ignored`).
* Status: Everything is proved except the direction, which the code ignores (violation proved).
* Theorems: `Axis.Time.convert_spec`, `Axis.Time.convert_ends`, `Axis.Time.convert_distance`, `Axis.Time.adjust_spec`, `Axis.Time.merge_spec`, `Axis.Time.labels_spec`, `Axis.Time.reverse_ignored`, `Axis.Time.direction_recorded`

### C151 Maps from CBD files show the coast lines in the file (partial)

* Modelled: `cbdfile` (`data.py:390-494`): header, dictionary, segments, strokes, removal of jumps, ranks, cache keys. (`pyx/graph/data.py`)
* Left out: Files are lists of bytes. The code is that of Python 2; the model has both languages, which differ in the comparison of a byte with a string. Names and ranks given as other things than whole numbers are not considered for the cache.
* Proof: The format is a separate specification (bytes of steps as an inductive predicate, lines at any address). Decoding of each byte by arithmetic modulo powers of two; rows by induction over the dictionary.
* Code against the claim: In Python 3, for which PyX is made, no file with a line can be read (`lines_fail`: TypeError, whatever ranks are asked for); only maps of single points can (`points_read`). The decoding itself is right (`read_partial`, in Python 2).
* Status: In Python 3 reading fails for every file with a line (violation proved); the decoding is proved right for Python 2.
* Theorems: `Graph.Cbd.read_partial`, `Graph.Cbd.shown_spec`, `Graph.Cbd.key_inj`, `Graph.Cbd.points_read`, `Graph.Cbd.lines_fail`

### C152 A reader of a PDF file finds exactly the pages of the document (partial)

* Modelled: `pdfwriter.py`: catalog, page tree, pages, contents, resources, the order of registrations and the options (`pdfwriter.py:108-120, 145-163, 243-333, 336-383`), on top of the registry and table of C30; the options of `SVGwriter`. (`pyx/pdfwriter.py`, `pyx/svgwriter.py`)
* Left out: Pages register any objects with any texts; numbers printed by `%f` and the information dictionary (C31, C32) are texts; zlib is any function. Names of resources have no blanks and line ends. Files are shorter than ten gigabytes (the format of the table).
* Proof: The reader is written down separately: it goes from the end of the file to the table, trailer, catalog, page tree, pages, streams and resources. An object registered in one form only is found unchanged in the registry (induction over registrations); the lines of each dictionary are computed. The resources use the semantics of nested dictionaries and sorting as permutation.
* Code against the claim: An empty page without a size of paper makes writing fail (`empty_page_fails`: ValueError, also for `canvas.writePDFfile` of an empty canvas). The level of compression is ignored (`compresslevel_ignored`). Old names of options raise NameError (`writer_options_fail`). Annotations are those of all pages (C72).
* Status: Reading of the file is proved; violations: empty pages without paper format, the ignored compression level and old option names.
* Theorems: `Pdf.File.pdf_pages`, `Pdf.File.pdf_resources`, `Pdf.File.pdf_objects`, `Pdf.File.pdf_written`, `Pdf.File.empty_page_fails`, `Pdf.File.compresslevel_ignored`, `Pdf.WriterOptions.writer_options_partial`, `Pdf.WriterOptions.writer_options_fail`

### C153 Braces have the shape and place their parameters say (partial)

* Modelled: `deco.py:957-1186`: all control points, both halves, mirroring, joining, the final transformation, and the end points used by `decorate`. (`pyx/deco.py`)
* Left out: Numbers are reals; items shorter than the precision are kept. The directions at begin and end of the path are given (C42).
* Proof: The specification `IsHalf` says what eight items form a half brace. The points of a half are related by the intersections; each item of the specification is then an identity. It is invariant under rigid transformations, and the final transformation and the mirroring are rigid; polar coordinates give where the end points go.
* Code against the claim: Bars are twice as thick as asked for (`brace_bar_doubled`). When the half brace is too short for the two smoothing lengths, the second one is computed from the changed first one, and the bar runs backwards (`brace_bars`, an equivalence; `ex_brace` shows a brace of 20 points). With slanted strokes, the cap has a corner, since the left half is slanted as the right one before it is mirrored (`brace_cap`, `ex_slanted`). Reversed braces with a distance use the direction of the other end (`brace_dist_reversed`).
* Status: Shape and place are proved; violations: double bar thickness, short braces, slanted caps, reversed braces with a distance.
* Theorems: `Deco.Brace.brace_halves`, `Deco.Brace.brace_closed`, `Deco.Brace.brace_drawn`, `Deco.Brace.brace_ends_partial`, `Deco.Brace.brace_bar_doubled`, `Deco.Brace.brace_bars`, `Deco.Brace.brace_cap`, `Deco.Brace.brace_dist_reversed`, `Deco.Brace.ex_brace`, `Deco.Brace.ex_slanted`

### C154 Specials of PyX in DVI files color, turn, scale, mark and include what they enclose (partial)

* Modelled: `dvifile.py:114-124, 233-320, 428-429, 467`: splitting of specials, all commands, all color models, the number pattern of `pyxcolor`, the stack of canvases and the dictionaries of markers. (`pyx/dvi/dvifile.py`)
* Left out: `float`, `int` and the tables of named colors are given; numbers are reals.
* Proof: The canvas is flattened to its elements with the groups around them, and compared with the list of items of the page with the groups open at each; the invariant is kept by each step for any stack of open canvases. The same for markers, with the transformations of the groups.
* Code against the claim: If a group is open at the end of the page, all that was before it is lost (`unclosed_group_lost`): `readpage` returns the innermost canvas. The same marker may be set twice, without an error, if one is in a group (`marker_twice_accepted`). The numbers of `pyxcolor` lose their exponents and signs, since `x[0]` is the mantissa only (`pyxcolor_exponents_lost`). Files whose names contain blanks or `=` cannot be included (`eps_name_refused`).
* Status: Proved for pages whose groups are closed and names of markers which differ; violated for pages with open groups, names of markers repeated in groups, exponents in pyxcolor and file names with blanks or equals signs.
* Theorems: `Dvi.Special.special_groups`, `Dvi.Special.special_markers`, `Dvi.Special.special_marker`, `Dvi.Special.special_accepted`, `Dvi.Special.end_without_begin`, `Dvi.Special.marker_twice`, `Dvi.Special.special_colors`, `Dvi.Special.special_trafos`, `Dvi.Special.special_unknown`, `Dvi.Special.pyxcolor_numbers`, `Dvi.Special.special_eps`, `Dvi.Special.unclosed_group_lost`, `Dvi.Special.marker_twice_accepted`, `Dvi.Special.pyxcolor_exponents_lost`, `Dvi.Special.pyxcolor_exponent`, `Dvi.Special.eps_name_refused`, `Dvi.Special.ex_page`

### C155 Font metric files of TeX are read completely, and texts get the box of their characters (partial)

* Modelled: `tfmfile.py:37-210` (all of it), the tests of `texfont.py:44-54`, the lookup of dimensions (`texfont.py:103-125`) and the box of `TeXtext_pt` (`texfont.py:157-176`). (`pyx/dvi/texfont.py`, `pyx/dvi/tfmfile.py`, `pyx/reader.py`)
* Left out: Files with negative sizes at the beginning. Conversion of dimensions is in C26; debug output.
* Proof: A specification `Contents` with its bytes `encode`; the reader inverts it, part by part. For truncation: readers are exact (more bytes make no difference) or so unless the end was reached, and the tables cannot be read at the end.
* Code against the claim: Headers of more than 18 words are printed to the standard output (`tfm_prints`); headers of 3-11 and 13-16 words are refused (`tfm_header_refused`); check sums whose first bit is set are not compared (`checksum_ignored`).
* Status: Reading, dimensions, truncation and boxes are proved; violated: long headers are printed, some lengths of headers are refused, check sums with the first bit set are not compared.
* Theorems: `Tfm.tfm_read`, `Tfm.tfm_dims`, `Tfm.tfm_truncated`, `Tfm.face_name`, `Tfm.font_accepted`, `Tfm.font_refused`, `Tfm.tfm_prints`, `Tfm.tfm_header_refused`, `Tfm.checksum_ignored`, `Tfm.ex_font`, `Tfm.Text.text_box`, `Tfm.Text.text_box_exists`

### C156 Positions on paths can be given as parameters or lengths, alone or in lists, in any order (partial)

* Modelled: `_valueorlistmethod`, `_convertparams`, `_distributeparams`, `_arclentoparam_pt`, `_paramtoarclen_pt` and the loops of `_at_pt`, `_rotation`, `_trafo`, `_tangent`, `curvature_pt` (`normpath.py:1526-1540, 1583-1617, 1648-1683, 1741-1750, 1817-1840, 1849-1855, 1935-1975`), the dictionary and the lists included; `path.rotation_pt`, `path.trafo_pt` (`path.py:1253-1255, 1283-1285`). (`pyx/normpath.py`, `pyx/path.py`)
* Left out: What happens in one sub-path (C42, C44, C46).
* Proof: The dictionary is, up to order, the list of the positions with their indices; setting results with different indices does not depend on the order. The loop over the sub-paths handles each length as if it were alone.
* Code against the claim: `path.rotation_pt` and `path.trafo_pt` take lengths in user units (`path_rotation_pt_wrong`). `arclentoparam` of an iterator (`map(...)`, generators) loses the first length silently (`arclentoparam_iter`). Tuples of lengths are refused (`positions_tuple`); `paramtoarclen([])` is an error (`paramtoarclen_empty`).
* Status: Proved for lists and single values; violated: path.rotation_pt and path.trafo_pt use the wrong unit, iterators lose their first item, tuples of lengths and empty lists of parameters are refused in places.
* Theorems: `NormPath.Positions.arclentoparam_list`, `NormPath.Positions.positions_list`, `NormPath.Positions.positions_value`, `NormPath.Positions.positions_units`, `NormPath.Positions.positions_foreign`, `NormPath.Positions.paramtoarclen_list`, `NormPath.Positions.ex_positions`, `NormPath.Positions.path_rotation_pt_wrong`, `NormPath.Positions.path_rotation_pt_partial`, `NormPath.Positions.arclentoparam_iter`, `NormPath.Positions.positions_tuple`, `NormPath.Positions.paramtoarclen_empty`

### C157 All pages of a DVI file are found in their order and in the right units (partial)

* Modelled: `_read_pre` and the begin of `readpage` (`dvifile.py:362-427`) on bytes, in the order in which `text.py` calls them (`text.py:858, 1248`). (`pyx/dvi/dvifile.py`, `pyx/text.py`)
* Left out: What is between `bop` and `eop` is a parameter (C28, C29, C154). Floats are rational numbers. A read comment which is too short is no error, as in the code.
* Proof: `nop`s are skipped by induction; the rest is composed from exact readers as in C155.
* Code against the claim: Font definitions are legal between any two commands of a DVI file; between the pages and before the first one the code raises `DVIError` (`dvi_fontdef_refused`).
* Status: Font definitions between pages, which are legal, are refused (dvi_fontdef_refused); proved for files with only no-operations between the pages.
* Theorems: `Dvi.File.dvi_pages`, `Dvi.File.dvi_page_number`, `Dvi.File.dvi_units`, `Dvi.File.dvi_fontdef_refused`, `Dvi.File.ex_file`, `Dvi.File.ex_units`, `Dvi.File.dvi_version`, `Dvi.File.dvi_more_pages`, `Dvi.File.dvi_less_pages`

### C158 A path drawn with a color gradient shows the colors of the gradient in order along the path (partial)

* Modelled: `colorgradient.decorate` (`deco.py:897-912`): the reversed lists, the strokes at the ends and the loop between them, on top of the model of `split` of C45. (`pyx/color.py`, `pyx/deco.py`, `pyx/normpath.py`)
* Left out: `arclentoparam` is a strictly increasing function from the lengths to the parameters (C46, C156); paths whose sub-paths are open. `attr.mergeattrs` (C24) is left out.
* Proof: Splitting open sub-paths at parameters in any order gives the pieces between them, so each color `k` is stroked from the length of step `k-1` to that of step `k+1`. Colors are painted from the last to the first, so color `k` covers what color `k+1` has painted too far.
* Code against the claim: Closed paths, for example circles, raise an `IndexError` (`gradient_closed`), since splitting a closed path at one place gives one piece only. A single step raises an `IndexError`, too (`gradient_single`).
* Status: Proved for paths whose sub-paths are all open and at least two steps. Closed paths and a single step raise an IndexError (gradient_closed, gradient_single), so the claim fails for them.
* Theorems: `Deco.Gradient.gradient_visible`, `Deco.Gradient.gradient_strokes`, `Deco.Gradient.gradient_works`, `Deco.Gradient.gradient_closed`, `Deco.Gradient.gradient_single`, `Deco.Gradient.ex_gradient`, `Deco.Gradient.split_open`, `Deco.Gradient.gradient_strokes_subs`, `Deco.Gradient.gradient_visible_subs`, `Deco.Gradient.along_covers`, `Deco.Gradient.gradient_works_subs`, `Deco.Gradient.ex_gradient_subs`

### C159 A normpath written to PostScript, PDF or SVG draws exactly its lines and curves (proved)

* Modelled: `outputPS`, `outputPDF`, `returnSVGdata` and `pathitems` of items, `normsubpath` and `normpath` (`normpath.py:321-362, 590-592, 675-684, 1263-1282, 1397-1447, 1841-1847, 1988-1998`). (`pyx/normpath.py`)
* Left out: The decimal digits of the numbers (`%g`, `%f`). Sub-paths are assumed to be connected exactly, and the last line of closed ones to have a length.
* Proof: The operators are run on the pens of C47 and C48 (`Verif/Path/Spec.lean`); the three formats are instances of one lemma. The lines and curves a figure traces, the closing line included, are those of the sub-path.
* Code against the claim: Holds.
* Status: For connected sub-paths (what the constructors of normpaths build up to epsilon).
* Theorems: `Path.NormOutput.normpath_ps`, `Path.NormOutput.normpath_pdf`, `Path.NormOutput.normpath_svg`, `Path.NormOutput.normpath_path`, `Path.NormOutput.ex_wellformed`

### C160 Bitmaps show at each pixel the color and the opacity of the image (partial)

* Modelled: The image dictionaries of `processPS`, `processPDF` and `PDFimage` with `devicenames` and `decodestrings` (`bitmap.py:34-41, 85-94, 269-322, 359-435, 445-558`), on the data of `imagedata` (C63). (`pyx/bitmap.py`)
* Left out: The syntax of the dictionaries, images of the Python Imaging Library, the geometry (C64), and the deflate and JPEG algorithms (`Undoes` states that the decoder undoes the encoder; the ASCII 85 decoder is that of C22).
* Proof: A reader after the PostScript and PDF references (`pixel`: filters, samples, decoding ranges, color tables, masks) is run on the dictionaries and compared with the samples of the image.
* Code against the claim: Holds for images without palette and for RGB palettes. Violated: gray palettes are cut to a third, CMYK palettes with three or more entries are announced too large, hexadecimal data raises an exception.
* Status: Holds for images without palette and RGB palettes; violated for gray and CMYK palettes and hexadecimal data in PostScript.
* Theorems: `Bitmap.Colors.pdf_colors_partial`, `Bitmap.Colors.ps_colors_partial`, `Bitmap.Colors.gray_palette_wrong`, `Bitmap.Colors.cmyk_palette_wrong`, `Bitmap.Colors.ps_hex_fails`, `Bitmap.Colors.ex_pixels`, `Bitmap.Colors.ex_undoes`

### C161 The intersection step of parallel keeps exactly the connected outlines, each piece once (partial)

* Modelled: The network of parameters (`nextp`), `trial_parampairs` and the loop over the starts (`deformer.py:1350-1372, 1416-1507`). (`pyx/deformer.py`)
* Left out: How the crossings and their directions are found (C162), and the cutting of the pieces (C37, C140). Parameters are numbers of positions in `allparams`; the assertion that the first parameter of a closed sub-path is its begin is taken as true.
* Proof: `Outline` describes a sub-path of the result without reference to the search. Termination: each repetition marks a parameter not marked before. Soundness by an invariant, completeness by following an outline.
* Code against the claim: Holds, except that pieces may lead from one sub-path to another one if the end of a sub-path is a crossing (`piece_sub_fails`), where also a `KeyError` is possible.
* Status: Termination, soundness, completeness and single use hold for all networks; that pieces stay on one sub-path holds only if all ends are listed.
* Theorems: `Deform.Rebuild.trial_ends`, `Deform.Rebuild.trial_outline`, `Deform.Rebuild.trial_complete`, `Deform.Rebuild.rebuild_outlines`, `Deform.Rebuild.piece_sub`, `Deform.Rebuild.piece_sub_fails`, `Deform.Rebuild.key_error`, `Deform.Rebuild.ex_eight`, `Deform.Rebuild.ex_consistent`

### C162 Crossings of a parallel path have one direction, are listed once, and points between the path and its parallel are excluded (partial)

* Modelled: `_can_continue`, the order of a pair, `_skip_intersection_doublet` and `_between_paths` (`deformer.py:1540-1556, 1588-1659, 1691-1720`). (`pyx/deformer.py`)
* Left out: The intersections of items themselves (C38) and `smaller_equiv`/`larger_equiv`. Tangents, curvatures and the order of parameters are given; being at the same point is taken as an equivalence for the theorem about all crossings (`enterAll_spec`), not for that about a single one (`enter_spec`).
* Proof: Signs of cross products; the strip and the sector are given by coordinates and compared with the solutions of `intersection`; induction over the crossings entered.
* Code against the claim: Holds for crossings, and for contacts in the same direction. Violated: a contact in opposite directions fails an assertion (`order_back_fails`), and points between a curve and its parallel are never excluded (`curve_never`).
* Status: Holds for crossings, contacts in the same direction, lines and corners; violated for contacts in opposite directions and curves.
* Theorems: `Deform.Continue.order_crossing`, `Deform.Continue.order_contact`, `Deform.Continue.order_back_fails`, `Deform.Continue.betweenLine_iff`, `Deform.Continue.betweenCorner_iff`, `Deform.Continue.curve_never`, `Deform.Continue.enter_spec`, `Deform.Continue.enterAll_spec`, `Deform.Continue.ex_order`, `Deform.Continue.ex_between`, `Deform.Continue.ex_enter`

### C163 The strings of form fields are read as they are given (partial)

* Modelled: The string entries, options and operators written by `PDFtextfield.write`, `PDFdefaulttext.write`, `PDFbuttonlist.write` and `PDFchoicefield.write` (`pdfextra.py:263-275, 315-321, 480-487, 686-703`). (`pyx/pdfextra.py`)
* Left out: The entries without strings (C144), the encoding of characters beyond ASCII.
* Proof: A reader for strings after ISO 32000-1 with nested parentheses, all escapes and ends of lines. `written_iff_safe` is an equivalence: a string with an escape is read shorter than it is written.
* Code against the claim: Holds exactly for strings with parentheses in balance and without backslashes and carriage returns, as nothing is escaped (other than in `PDFinfo`, C32). Violated for `1) first`, `f(x` or `C:\data`.
* Status: Equivalence: exactly the strings with balanced parentheses and without backslashes and carriage returns are read as given.
* Theorems: `Pdf.Strings.written_iff_safe`, `Pdf.Strings.entries_read`, `Pdf.Strings.text_read`, `Pdf.Strings.choice_read`, `Pdf.Strings.options_read`, `Pdf.Strings.shows_read`, `Pdf.Strings.options_fail`, `Pdf.Strings.name_fails`, `Pdf.Strings.ex_safe`, `Pdf.Strings.ex_read`

### C164 A text goes where its box goes (partial)

* Modelled: `textextbox_pt` (`text.py:803-908`) and the box of `unicodetextbox_pt` (`text.py:1595, 1634-1638, 1671-1689`) with `transform`, `reltransform`, `bbox` and `rect_pt` (`box.py:63-74, 249-253, 308-318`). A page is a list of characters, rules and groups, each given by the points of its outline. (`pyx/box.py`, `pyx/text.py`)
* Left out: Which vector an alignment moves by (C52), reading of pages (C28, C154), fill styles, the order of output of the canvas (C33, C34). Groups are one level deep. `unicodetextbox_pt.bbox`, which is the box of the ink without the origin.
* Proof: Induction over the operations. `follow` says where the operations bring an anchor and a point, one after the other, without products of transformations; the transformation of a page which was read equals `texttrafo` at all times (`run_good`). The bounding box contains the text by the signs of the coefficients of the affine map.
* Code against the claim: Holds for TeX texts in all cases, except that `textpath` raises `AttributeError` for texts with rules or groups (`textpath_fails`). For Unicode texts the anchor is not the given place, but the lower left corner of the box (`unicode_anchor`), so texts with descenders are aligned differently from TeX texts.
* Status: Violated: outlines of texts with rules or groups raise AttributeError; the anchor of Unicode texts is the corner of the box. Everything else is proved for all sequences of operations.
* Theorems: `Text.Boxes.text_follows`, `Text.Boxes.tex_start`, `Text.Boxes.box_follows`, `Text.Boxes.anchor_is_origin`, `Text.Boxes.rel_keeps_anchor`, `Text.Boxes.drawn_follows`, `Text.Boxes.marker_follows`, `Text.Boxes.reading_time`, `Text.Boxes.textpath_drawn_partial`, `Text.Boxes.textpath_fails`, `Text.Boxes.unicode_textpath`, `Text.Boxes.unicode_box`, `Text.Boxes.unicode_anchor`, `Text.Boxes.bbox_contains`

### C165 A mesh shows its triangles in their colors (partial)

* Modelled: `mesh.__init__`, `processPS`, `processPDF` (`mesh.py:79-95, 125-139, 153-180`) with the data of C53, `colorspacestring` and `to8bitbytes` (`color.py`). (`pyx/color.py`, `pyx/mesh.py`)
* Left out: `meshasbitmap`, SVG output (both render with Ghostscript), the name of the resource. `%f` is any function with an error of at most `δ`, zlib any function with an inverse. The text of the dictionary is a record.
* Proof: A reader for shadings of type 4 with flags, decode array, filters and length; `check_iff` characterises the check. Printing the bounds with an error moves what is decoded by no more than this error (`decode_rounded`).
* Code against the claim: Holds for meshes with width and height. A flat mesh or a mesh without elements passes the check and raises `ZeroDivisionError` or `ValueError` on output (`flat_fails`, `empty_fails`); HSB colors raise `RuntimeError` (`hsb_refused`).
* Status: Proved for meshes with width and height; flat and empty meshes raise on output (theorems).
* Theorems: `Mesh.Output.check_iff`, `Mesh.Output.ps_shown_partial`, `Mesh.Output.pdf_shown_partial`, `Mesh.Output.flat_fails`, `Mesh.Output.empty_fails`, `Mesh.Output.hsb_refused`

### C166 Drawing a path follows its attributes (proved)

* Modelled: `canvas.draw`, `stroke`, `fill` (`canvas.py:353-400`), `mergeattrs` with the merge methods (`attr.py:28-166`, `linehatched.merge`, `deco.py:788-791`), `stroked` and `filled` (`deco.py:405-446`). (`pyx/attr.py`, `pyx/canvas.py`, `pyx/deco.py`)
* Left out: Ranges which are not stroked (C33), the text engine; deformers and decorators are any functions. The check of the attributes is that all are allowed (C09).
* Proof: What the attributes ask for is defined by scanning the list (`strokeOf`, `fillOf`, `styOf`, `deformers`, `decorators`); `merge_kind` shows that merging leaves the survivors of each kind in order, `merge_late` that line widths are put before dashes.
* Code against the claim: Holds.
* Status: holds for all attribute lists
* Theorems: `Canvas.Draw.draw_ok`, `Canvas.Draw.draw_error`, `Canvas.Draw.stroke_default`, `Canvas.Draw.fill_default`, `Canvas.Draw.stroke_last`, `Canvas.Draw.hatch_replaces`

### C167 Copies of decorators keep what is not changed (partial)

* Modelled: `arrow.__init__` and `__call__` (`deco.py:498-532`), the styles of `linehatched` and `hatched` (`deco.py:747-766`, `pattern.py:184-199`), `linesmoothed.__init__` and `__call__` (`deformer.py:1729-1749`). (`pyx/deco.py`, `pyx/deformer.py`, `pyx/pattern.py`)
* Left out: The other deformers copy their arguments in the same way as the numbers here; hatching as an attribute of the head of an arrow. `pattern.__call__` is in C143; copies of axes and painters are in C115.
* Proof: Reading a merged list behind defaults gives the default exactly where nothing is left (`again_stroke`, `again_fill`, `again_style`).
* Code against the claim: Holds for the parameters and for `linesmoothed`; for attributes exactly if no default was cleared (`arrow_keeps_partial`): an arrow with `filled.clear` is filled again in a copy (`arrow_refilled`), and hatching with `linewidth.clear` gets thin lines (`hatch_thin`).
* Status: attributes which clear a default are lost in copies
* Theorems: `Canvas.Draw.arrow_params`, `Canvas.Draw.arrow_keeps_partial`, `Canvas.Draw.arrow_refilled`, `Canvas.Draw.hatch_keeps_partial`, `Canvas.Draw.hatch_thin`, `Canvas.Draw.smoothed_keeps`, `Canvas.Draw.again_stroke`, `Canvas.Draw.again_fill`, `Canvas.Draw.again_style`

### C168 Parameters of the parallel deformer keep their item (partial)

* Modelled: `mynormpathparam` (`deformer.py:690-804`), the loops of `normpath_selfintersections` and `normpath_origintersections` (`deformer.py:1520-1530, 1574-1578`), `normsubpath.at_pt` for one parameter (`normpath.py:848-869`). (`pyx/deformer.py`, `pyx/normpath.py`)
* Left out: Floating point numbers are exact; the items are any functions. Skipping crossings of successive items at their joint is not part of a theorem; the direction and the doublets of pairs are in C162.
* Proof: Case analysis of the truncation in `__init__`; nearness is defined without the flags.
* Code against the claim: Holds for the item, the values and the pairs (`make_ok`, `at_item`, `pairs_once`); the order along the sub-path holds except just before the end of an item (`order_partial`, `order_end`), and the change between two items holds when the last 1e-8 of the first one is shorter than epsilon (`between`), otherwise the joint is not recognised (`long_item`; lines longer than 1000 points with the default epsilon).
* Status: The order along the sub-path fails just before the end of an item (order_end), and the joint of items longer than 1e8 epsilon is not recognised (long_item).
* Theorems: `Deform.Param.make_ok`, `Deform.Param.known`, `Deform.Param.at_item`, `Deform.Param.at_inside`, `Deform.Param.at_end`, `Deform.Param.trichotomy`, `Deform.Param.lt_trans'`, `Deform.Param.order_partial`, `Deform.Param.order_end`, `Deform.Param.smaller_sound`, `Deform.Param.larger_sound`, `Deform.Param.between`, `Deform.Param.long_item`, `Deform.Param.pairs_mem`, `Deform.Param.pairs_nodup`, `Deform.Param.pairs_once`, `Deform.Param.origPairs_mem`

### C169 Supplementary files of TeX are given back (partial)

* Modelled: The part of `do_start` and `_cleanup` (`text.py:1047-1059, 1160-1167`) which moves `usefiles`. TeX is any function on the files of the temporary directory. (`pyx/text.py`)
* Left out: Directories, permissions and the ways to terminate a hanging TeX. `os.rename` fails between file systems, as POSIX says, and replaces existing files.
* Proof: Induction over the list of files; the files are functions from names to contents.
* Code against the claim: Holds for different extensions and files on the file system of the temporary directory (`seen_partial`, `saved_partial`, `kept_partial`); other files are never touched (`others`). A file on another file system is not given to TeX and is then deleted unless TeX writes such a file (`lost_device`), a file like `../refs` is always deleted (`lost_path`), and of two files with the same extension one is lost and the other one replaced (`lost_extension`).
* Status: Holds for files with different extensions on the file system of the temporary directory; otherwise files are lost (lost_device, lost_path, lost_extension).
* Theorems: `Text.UseFiles.ext_dot`, `Text.UseFiles.seen_partial`, `Text.UseFiles.seen_device`, `Text.UseFiles.others`, `Text.UseFiles.saved_partial`, `Text.UseFiles.kept_partial`, `Text.UseFiles.next_run`, `Text.UseFiles.lost_device`, `Text.UseFiles.lost_path`, `Text.UseFiles.lost_extension`

### C170 Operations on a path do not change other paths (partial)

* Modelled: A heap of sub-paths, normpaths (lists of references) and paths (items and cached normpath), with `__add__`, `__iadd__` (as a loop over the list which it may change), `append` of items, `copy`, `join`, `joined`, `reversed`, `transformed`, `split` at one point (`normpath.py:1548-1568, 1620-1637, 1731-1736, 1783-1811, 1848-1853, 1873-1913, 1983-1985`) and `path.append`, `path.normpath` (`path.py:1115-1119, 1216-1233`). (`pyx/normpath.py`, `pyx/path.py`)
* Left out: The contents of sub-paths and what items do to the last sub-path are any functions (see C44, C45 and C48 for them). `append` of sub-paths shares them as asked for. Items are never changed.
* Proof: An invariant (`Separate`): no reference occurs twice. Each operation is described by the values of all normpaths; programs by induction.
* Code against the claim: Holds for programs which do not split and join only normpaths with a single sub-path (`step_partial`, `run_partial`, `cached_step_partial`). Otherwise sub-paths are shared: changing `a << b` changes `b` (`joined_shared`), changing a part of a split path changes the path (`split_shared`), changing `p.normpath()` changes the path (`cache_changed`), and `p += p` never ends (`iadd_self`).
* Status: Sub-paths are shared by join with several sub-paths, split and the cached normpath of a path (joined_shared, split_shared, cache_changed); p += p does not end (iadd_self).
* Theorems: `NormPath.Objects.iadd_loop`, `NormPath.Objects.iadd_self`, `NormPath.Objects.item_spec`, `NormPath.Objects.join_spec`, `NormPath.Objects.step_partial`, `NormPath.Objects.run_partial`, `NormPath.Objects.results`, `NormPath.Objects.joined_spec`, `NormPath.Objects.cached_step_partial`, `NormPath.Objects.pathNorm_spec`, `NormPath.Objects.joined_shared`, `NormPath.Objects.split_shared`, `NormPath.Objects.cache_changed`

### C171 Values of the configuration (partial)

* Modelled: `get`, `getint`, `getboolean`, `getlist` and the reading of three files (`config.py:304-364`); `str.split`, `str.replace`. (`pyx/config.py`)
* Left out: `configparser`: syntax of files and substitution of `%` are parameters; `int()` too. `getfloat` is `getint` with another parameter.
* Proof: The last entry of the concatenated files; words and marks of a list one after the other.
* Code against the claim: A value which is no number raises an exception in spite of the default; a value with a `%` that is no substitution is silently replaced by the default; an item which contains the mark (`SPACE`) is changed.
* Status: A value that is no number raises in spite of the default and a wrong % hides the value (defaults_wrong); items with the mark are changed (mark_changed), list round trip for items without its first character.
* Theorems: `Config.Values.last_some`, `Config.Values.files_order`, `Config.Values.raw_missing`, `Config.Values.further_file`, `Config.Values.get_partial`, `Config.Values.percent_hidden`, `Config.Values.default_safe`, `Config.Values.getint_spec`, `Config.Values.getboolean_spec`, `Config.Values.getlist_partial`, `Config.Values.getlist_default`, `Config.Values.defaults_wrong`, `Config.Values.mark_changed`

### C172 Type 1 fonts embedded in PDF files (partial)

* Modelled: `outputPDF`, `writePDFfontinfo`, `getglyphinfo`, `from_PFA_bytes`, `from_PF_bytes` (`t1file.py:1048-1088, 1135-1174, 1233-1239`). (`pyx/font/t1file.py`)
* Left out: The dictionary of the stream is a list of numbers, not their text; `zlib` is a parameter; the outlines of glyphs are given (C91).
* Proof: A separate reader cuts the stream at its lengths; the argument of complex numbers for the angle.
* Code against the claim: Fonts in ASCII form cannot be read; a glyph without outline among the six used for guessing raises an exception; numbers are rounded towards zero, so that the font box may cut glyphs.
* Status: Fonts in PFA form cannot be read (pfa_unreadable), glyphs without outline raise (info_raises), numbers are rounded towards zero (bbox_cuts).
* Theorems: `T1.Embed.embed`, `T1.Embed.skipped_iff`, `T1.Embed.pfa_unreadable`, `T1.Embed.info_complete`, `T1.Embed.info_missing`, `T1.Embed.info_raises`, `T1.Embed.info_partial`, `T1.Embed.bbox_cuts`, `T1.Embed.italic`

### C173 Output by Ghostscript (partial)

* Modelled: `_gscmd`, `writeGSfile`, `pipeGS` (`canvas.py:433-520`). (`pyx/canvas.py`)
* Left out: The EPS and PDF writers and Ghostscript are parameters; the process started before a failing EPS writer is not followed any further.
* Proof: A separate reader of arguments, for which a key ends at the first equals sign and the last setting counts, finds the device, the file and the bits.
* Code against the claim: Failures of Ghostscript are never seen, since neither the exit code nor the standard error is looked at (`failure_unseen`, `never_value`); temporary files stay when writing fails (`temp_left`); the resolution is cut to an integer (`resolution_cut`).
* Status: Proved as long as the writers raise nothing. Failures of Ghostscript are not reported, temporary files are left when writing fails, and resolutions are cut to integers (negations proved).
* Theorems: `Canvas.Ghostscript.gscmd_output`, `Canvas.Ghostscript.gscmd_alpha`, `Canvas.Ghostscript.gscmd_options`, `Canvas.Ghostscript.device_guess`, `Canvas.Ghostscript.name_guess`, `Canvas.Ghostscript.name_missing`, `Canvas.Ghostscript.write_runs`, `Canvas.Ghostscript.pipe_result`, `Canvas.Ghostscript.failure_unseen`, `Canvas.Ghostscript.never_value`, `Canvas.Ghostscript.temp_left`, `Canvas.Ghostscript.temp_left_write`, `Canvas.Ghostscript.resolution_cut`, `Canvas.Ghostscript.ex_gs`

### C174 The line reader of EPS files delivers the file piece by piece (partial)

* Modelled: `linefilereader` (`epsfile.py:57-138`): all calls with and without a message, the buffer with its type. (`pyx/epsfile.py`)
* Left out: Negative counts; `close`.
* Proof: One call against what is left of the file (`call_spec`), then induction over the calls.
* Code against the claim: Holds up to the first successful `read()` (`calls_partial`, `consecutive`, `whole`). After it the buffer is the text `""`, and each further call but `read(0)` is a TypeError, also where an empty result is documented (`broken_after_rest`, `line_after_rest_fails`).
* Status: Holds up to the first successful read(); afterwards the reader raises TypeErrors.
* Theorems: `Eps.Calls.call_spec`, `Eps.Calls.calls_partial`, `Eps.Calls.consecutive`, `Eps.Calls.whole`, `Eps.Calls.broken_after_rest`, `Eps.Calls.line_after_rest_fails`

### C175 Lines of font maps give the font and the encoding in the files they name (partial)

* Modelled: `MAPline.getfont` and `getencoding` (`mapfile.py:126-161`) on top of `config.open` of C55 with its locators and caches. (`pyx/config.py`, `pyx/dvi/mapfile.py`)
* Left out: The readers of the file formats are parameters; `extendfont` is not used by the code. Identity of font objects is equality of values.
* Proof: The font is specified by the requests which succeed and fail (`IsFont`); calls by induction over their sequence.
* Code against the claim: Proved: `font_found`, `one_font`, `failure_again`, `one_encoding`, `encoding_iff`, `wrong_name`. Refuted: PFM files are searched as Type 1 fonts, so that the locators `local` and `internal` look for `x.pfm.pfa` and `x.pfm.pfb`; the font then has no metrics although the file is there (`pfm_names`, `pfm_ignored`). Without `ReEncodeFont` an encoding file is an AssertionError unless the encoding is called `None` (`no_reencode`). A damaged AFM file is an error although the PFM file could be used (`bad_afm`).
* Status: All but the PFM fallback without kpsewhich (refuted by pfm_ignored) and encoding files without ReEncodeFont (no_reencode).
* Theorems: `MapFile.font_found`, `MapFile.one_font`, `MapFile.failure_again`, `MapFile.bad_afm`, `MapFile.wrong_name`, `MapFile.pfm_names`, `MapFile.pfm_ignored`, `MapFile.no_encoding`, `MapFile.encoding_iff`, `MapFile.no_reencode`, `MapFile.one_encoding`

### C176 Labels of an axis are chosen such that they do not cross (partial)

* Modelled: `rater.ratelayout` and `distance.rate` (`rater.py:99-114,208-225`) on top of the creation of axes of C116. (`pyx/graph/axis/axis.py`, `pyx/graph/axis/rater.py`)
* Left out: `boxdistance_pt` is a parameter (it is modelled for C-properties about boxes); the canvas of the painter gives the labels.
* Proof: Distances by induction over the labels; `chosen_labels` uses that the variant chosen is the best one (`create_best`).
* Code against the claim: Proved (`unsuitable_iff`, `rate_value`, `chosen_labels`) for labels which do not touch. Refuted: labels at distance 0 are a ZeroDivisionError (`touching_iff`). If all of several partitions have at most one label there is no axis at all (`few_labels_fail`).
* Status: All but touching labels, which raise (touching_iff); axes with a single label fail when there are several partitions (few_labels_fail).
* Theorems: `Axis.Layout.unsuitable_iff`, `Axis.Layout.touching_iff`, `Axis.Layout.rate_value`, `Axis.Layout.chosen_labels`, `Axis.Layout.few_labels_fail`

### C177 Data get the titles and styles they are asked for (partial)

* Modelled: Titles and default styles in `data`, `function`, `paramfunction`, `join` (`data.py:161-172,506-509,570-573,632-651`), the choice of styles in `graph.plot` (`graph.py:210-218`); `escapestring` is that of C132. (`pyx/graph/data.py`, `pyx/graph/graph.py`, `pyx/text.py`)
* Left out: `str` of column values is given; columns of joined data are C57; default providers are C110's plot items.
* Proof: Sorting is unique for distinct names; loops by induction; `plot_default_iff` splits the list at the first data with default styles.
* Code against the claim: Proved (`given_titles`, `title_order`, `title_value`, `join_title_iff`, `join_styles`, `plot_given`, `plot_default_iff`, `plot_common`, `join_plot_iff`). Refuted: data without default styles are plotted with those of later data (`order_of_data`); titles with other characters than printable ASCII raise ValueError (`umlaut_fails`, `title_made_iff`); data without title cannot be joined without a title (`join_untitled`).
* Status: Refuted for data without default styles in front of others, titles which are not printable ASCII, and joining data without titles.
* Theorems: `Data.Styles.given_titles`, `Data.Styles.title_order`, `Data.Styles.title_value`, `Data.Styles.title_made_iff`, `Data.Styles.umlaut_fails`, `Data.Styles.join_title_iff`, `Data.Styles.join_untitled`, `Data.Styles.join_styles`, `Data.Styles.plot_given`, `Data.Styles.plot_default_iff`, `Data.Styles.plot_common`, `Data.Styles.join_plot_iff`, `Data.Styles.order_of_data`

### C178 Texts are typeset by the engine one has chosen (partial)

* Modelled: `text.set` with binding of positional and keyword arguments (`text.py:1790-1844`), the engine of canvases (`canvas.py:103-131,401-424`), of axes (`axiscanvas`, `painter.py:37-47`; `graph.py:160-161,359-364`), linked axes (`axis.py:47-51`) and keys (`key.py:74-85`). (`pyx/canvas.py`, `pyx/graph/axis/axis.py`, `pyx/graph/axis/painter.py`, `pyx/graph/graph.py`, `pyx/graph/key.py`, `pyx/text.py`)
* Left out: What engines do (C130 for TeX); whether their constructors succeed is given; warnings; sub-axes of bar axes; path axes (the default engine, `axis.py:710`).
* Proof: Histories by induction: `lastGiven` is a separate specification of the engine of a canvas.
* Code against the claim: Proved (`set_engine`, `set_outcome`, `functions_agree`, `canvas_engine`, `canvas_begin`, `axis_engine`, `mode_iff`, `cls_same`, `positional_after`). Refuted: the documented positional arguments of the engine make `set` fail (`positional_refused`); `settextengine` of a graph has no effect on its axes and its key (`graph_engine_ignored`); keys use the default engine of the time of drawing (`key_engine_differs`); the engine of a link painter is not used (`link_engine_iff`, `link_engine_ignored`).
* Status: Everything but graphs as stated; positional arguments, engines of graphs for axes and keys, and engines of link painters are refuted.
* Theorems: `TextDefault.set_engine`, `TextDefault.positional_refused`, `TextDefault.positional_after`, `TextDefault.mode_iff`, `TextDefault.cls_same`, `TextDefault.set_outcome`, `TextDefault.functions_agree`, `TextDefault.canvas_engine`, `TextDefault.canvas_begin`, `TextDefault.axis_engine`, `TextDefault.graph_engine_ignored`, `TextDefault.key_engine_differs`, `TextDefault.link_engine_iff`, `TextDefault.link_engine_ignored`

### C179 shownormpath shows the whole construction of a path (proved)

* Modelled: `shownormpath` (`deco.py:690-739`): the three loops over the normalised path. (`pyx/deco.py`)
* Left out: Attributes are arbitrary values (`refineattrs` is C09); the conversion to a normalised path (C45, C52); how circles and items are drawn.
* Proof: The end points are compared with a separate list of vertices; items and control points by membership and filters.
* Code against the claim: Holds (`items_shown`, `control_shown`, `drawEnds_vertices`, `vertices_length`, `begin_vertex`, `ends_last`, `nothing_shown`). The begin of a closed sub-path has two dots.
* Status: All parts of the statement.
* Theorems: `ShowPath.items_shown`, `ShowPath.control_shown`, `ShowPath.drawEnds_vertices`, `ShowPath.vertices_length`, `ShowPath.begin_vertex`, `ShowPath.ends_last`, `ShowPath.nothing_shown`

### C180 Boxes collected while writing bitmaps, meshes and SVG files (partial)

* Modelled: The change of the argument `bbox` by `processPS/PDF/SVG` of bitmaps (`bitmap.py:445-465,540-553,560-574`), meshes (`mesh.py:110-194`), SVG files (`svgfile.py:570-597`) and canvases (`canvas.py:182-281`); the boxes of pages (`document.py:75-79`) and patterns (`pattern.py:76-103,121-148,365-376`). (`pyx/baseclasses.py`, `pyx/bitmap.py`, `pyx/canvas.py`, `pyx/document.py`, `pyx/mesh.py`, `pyx/pattern.py`, `pyx/svgfile.py`)
* Left out: Line widths (C34, C143), rasterised meshes in PS and PDF, paper formats, `bboxenlarge` of patterns; the page theorem is for pictures without clipping.
* Proof: The effect of writing is shown to be that of adding the box of a part of the picture, which is defined separately (`plainPart`).
* Code against the claim: Holds for PS and PDF (`ps_pdf_update`, `ps_pdf_includes`, `ps_pdf_pattern`) and for pages without clipping in all formats (`page_box`; `page_box_clipped`: with clipping the formats may differ). **Violated** for SVG (`svg_not_includes`, `svg_update`): bitmaps, meshes and unparsed SVG files do not update the box, so a pattern made of them cannot be written as SVG (`svg_pattern_iff`, `bitmap_pattern_fails`) or gets a tile of the wrong size. `svg_includes_partial` keeps what holds.
* Status: Holds for PostScript and PDF and for pages in all formats; refuted for SVG, where bitmaps, meshes and unparsed SVG files do not update the box
* Theorems: `BoxUpdate.ps_pdf_update`, `BoxUpdate.svg_update`, `BoxUpdate.page_box`, `BoxUpdate.ps_pdf_includes`, `BoxUpdate.svg_not_includes`, `BoxUpdate.svg_includes_partial`, `BoxUpdate.svg_pattern_iff`, `BoxUpdate.ps_pdf_pattern`, `BoxUpdate.bitmap_pattern_fails`, `BoxUpdate.page_box_clipped`


## Findings

Places where the code does not do what the property says. With a theorem:

| where | what | theorem |
|-------|------|---------|
| bbox.py `__mul__` | the product of disjoint boxes is not empty | `BBox.disjoint_product_not_empty` |
| trafo.py `_mmatrix` | `mirror(angle)` mirrors at the line of direction -angle | `Trafo.mirror_not_keeps_line` |
| trafo.py `slant_pt` | centre moves, direction, double unit conversion | `Trafo.slantPt_moves_center`, `slantPt_wrong_direction`, `slant_double_conversion` |
| attr.py | merging text attributes is not idempotent | `Attr.text_not_idempotent` |
| graph/axis/tick.py | comparison with negative denominators, zero to a negative power, duplicates in merged lists | `Tick.compare_neg_wrong`, `power_zero_wrong`, `merge_duplicates` |
| graph/axis/parter.py | negative logarithmic ranges exchange the flags | `Parter.negative_flags_swapped` |
| graph/axis/axis.py | choice of a partition never ends for empty canvases | `Axis.choose_forever` |
| graph/axis/texter.py | period misplaced, separators in the padding, sub-ticks, lost sign | `Texter.period_misplaced`, `padding_separators`, `equaldenom_subtick`, `analyse_neg_denom` |
| font/t1file.py | -2^31, `lenIV` > 4, `outputPFB` | `T1.charstring_roundtrip_false`, `charstring_roundtrip_iff`, `Pfb.outputPFB_fails` |
| font/t1file.py | nested `div`; glyph paths: widths and accents of composite glyphs, floor division, counter hints, operands taken from the bottom | `T1.nested_div_fails`, `composite_width_wrong`, `accent_place_wrong`, `fraction_wrong`, `counter_wrong`, `below_wrong` |
| reader.py | `readint24` never negative; comments not skipped in bytes | `Reader.readint24_wrong`, `T1.comments_not_skipped` |
| bitmap.py | announced lines of chunked images; images sharing a name; JPEG segments searched for markers, SOF1 | `Ascii85.lines_chunked_wrong`, `Bitmap.same_bytes_wrong`, `each_painted_wrong`, `same_colours_wrong`, `comment_ends_image`, `extended_rejected` |
| dvi/vffile.py | long packets | `Vf.parse_long_wrong` |
| dvi/dvifile.py | rules and registers in virtual fonts, first font, NOP, non-ASCII specials | `Dvi.vf_setRule_wrong`, `vf_register_wrong`, `vf_first_wrong`, `nop_rejected`, `special_nonascii_rejected` |
| dvi/mapfile.py | a bad number aborts reading; `< foo.pfb` | `MapFile.malformed_not_ignored`, `separate_font_file_wrong` |
| pdfwriter.py | sign of the time zone, large character codes, annotations shared by pages | `Pdf.timezone_wrong`, `pdfstring_large`, `annotations_shared` |
| canvas.py, deco.py | fill rule ignored, stale font, text and path objects, patterns, form field styles | `Canvas.ps_fillrule_ignored`, `pdf_fillrule_ignored`, `ps_wrong_font`, `pdf_text_outside`, `pdf_path_object`, `pdf_pattern_error`, `pdf_field_styles_leak` |
| canvas.py `layer` | a failing call changes the canvas | `Layer.failing_call_loses_layer`, `above_itself_loses_layer`, `failing_call_hides_layer` |
| document.py | fitting flat content divides by zero | `Page.flat_content_fails` |
| normpath.py | short first line (228), closed sub-paths (876, 1371) | `NormPath.short_self_wrong`, `Sub.closed_accepts_without_epsilon`, `Sub.closed_split_wrong_end` |
| path.py | PDF after closepath, SVG `arct`, negative radii, `arct` errors | `Path.pdf_line_after_close`, `pdf_close_raises`, `svg_arct_wrong`, `arcbbox_negative_radius`, `arctItems_error` |
| mathutils.py 80-82 | double roots of cubics | `Roots.cubic_wrong`, `cubic_false`, `quartic_false` |
| mesh.py | empty range divides by zero | `Mesh.coords24_empty` |
| connector.py | two lines with angles, opposite length, default curve | `Connector.twolines_angles_wrong`, `twolines_opposite_wrong`, `curve_default_wrong` |
| box.py | `linealign`, `tile`, contained boxes | `Box.linealign_wrong`, `tile_wrong`, `contained_not_raised` |
| config.py | late binding of the loop variable, caches, missing `ls-R`, `.pro` | `Config.local_wrong`, `local_wrong_order`, `repeated_request_differs`, `missing_lsr_hides`, `removed_gives_none`, `pro_never_tried` |
| graph/data.py | `skiptail`, column names, new options, uneven tuples, one sample | `Data.skiptail_false`, `names_false`, `conffile_false`, `param_uneven`, `samples_one` |
| metapost/mp_path.py 436 | a curve against its chord divides by zero | `MetaPost.reversed_fails` |
| metapost/path.py 226-228, 348, mp_path.py 134 | the closing line of a path is never drawn; a line that keeps angles overwrites a control point, or makes the path fail at its end; smooth knots next to lines; closed paths with lines are not closed | `MetaPost.closing_line_missing`, `control_overwritten`, `last_line_keepangles`, `smooth_before_line`, `smooth_behind_line`, `line_not_closed` |
| epsfile.py 160 | a bounding box deferred to the trailer is never read | `Eps.bbox_atend_fails` |
| svgfile.py 160-237 | `S` after `Q` and `T` after `C` reflect the wrong control point; incomplete groups raise; drawing on after closepath fails | `Svg.smooth_after_quadratic`, `quad_smooth_after_cubic`, `missing_number`, `after_close`, `after_close_fails` |
| svgfile.py 88-145, 230 | `10.` makes its command disappear; the rotation angle of an arc is scaled like a length | `Svg.trailing_point`, `pt_in_path`, `arc_rotation_scaled` |
| svgfile.py 255, 277-280 | `matrix(...)` is transposed; matrices and skews are composed in the wrong order | `Svg.matrix_transposed`, `skew_order`, `skew_order_wrong` |
| svgfile.py 398-404 | the clip to the viewBox is a rectangle in centimetres; pictures are stretched although `preserveAspectRatio` defaults to keeping the shape | `Svg.clip_scaled`, `aspect_ignored` |
| svgfile.py 59 | an arc between equal points divides by zero | `Svg.endpointarc_equal` |
| svgfile.py 390-476 | fill and stroke of the root element are ignored; shapes in `defs` are drawn; an inner `svg` drops what is in front of it | `Svg.Tree.root_paint`, `defs_drawn`, `inner_svg_loses` |
| graph/style.py 536-556 | a point outside by less than the tolerance counts as inside; the cut behind it may be negative, and a line far outside of the graph is drawn | `Style.line_escapes` |
| graph/style.py 772-791 | error bars on reversed axes disappear if they cross the boundary | `Style.errorbar_reversed` |
| graph/style.py 1141, 1253 | fillable histogram with `fromvalue=None`: `vfromvaluecut` is not set, `AttributeError` | `Style.Hist.rectangle_no_fromvalue` |
| graph/graph.py 1030, 1039, 1066, 1075 | with `xy12axesat` the ticks of x, x2, y and y2 axes start at height 0 instead of at the axis and are skewed | `Graph.ticks_skewed` |
| graph/graph.py 945-956 | error bar caps in 3D graphs are `2·scale` times the requested length | `Graph.cap_too_long` |
| graph/style.py 1472-1480 | a value stacked beyond the end of the graph on a bar inside is marked as valid, so texts and symbols are drawn outside of the graph | `Style.Bar.stacked_valid_wrong` |
| graph/graph.py 508-514 | `graphxy.xvgridpath`/`yvgridpath` called by the user on a flipped graph return lines of the other direction | `Graph.XY.xvgridpath_flipped` |
| graph/graph.py 73-85 | default providers may be inserted twice, e.g. `pos` for `[surface(), symbol()]` | `Graph.Item.pos_twice` |
| graph/graph.py 189-201 | `graph` finishes itself for PS and PDF but not for SVG: with a page `bbox` given (document.py 75-78), an SVG file of a graph is empty | `Graph.Steps.svg_unfinished` |
| graph/graph.py 609-616 | after `bbox()` of a graph without data, data plotted later are drawn but missing in the key | `Graph.Steps.key_lost` |
| `graph/style.py` 192–194, 212–216 | `pos(usenames={"x": "a", "y": "a"})`: the dictionary from columns to axes keeps the last axis only, so x positions are converted by the y axis and the x axis is not adjusted | `PyX.Style.Columns.pos_same_column` |
| graph/style.py 1757-1758, 1927-1928 | a point without position overwrites the color of the previous point on the grid (`sharedata.value1/2` are stale); as first point it raises AttributeError | `Style.Grid.color_replaced`, `Style.Grid.color_first` |
| graph/style.py 1783, 1794 | the order of cells of a surface is the same for the whole graph: wrong for a central projection whose eye is within the range of a grid coordinate | `Style.Surface.surface_wrong` |
| graph/style.py 1761-1774, 1799-1800 | the triangles of a cell are ordered by distances in the whole graph instead of the shape of the cell: wrong for different scales or spacings | `Style.Surface.triangles_wrong` |
| `graph/axis/painter.py` 226-230, 262-267 | with equalized labels the extent of the axis is too small by the depth of the label moved most, so the title may overlap labels | `Axis.Paint.extent_wrong` |
| `graph/axis/painter.py` 209-218, 232-234 | a label without attributes for its level (`None`) raises AttributeError instead of being left out | `Axis.Paint.label_off` |
| texter.py 345-348, parter.py 82-83, 228-229 | the texter `rational` and the parters `linear` and `logarithmic` raise `AttributeError` when called with any keyword arguments | `Util.Cfg.copy_raises` |
| axis.py 306 | `logarithmic.__call__` makes a linear axis and raises because of the unknown `linearparter` | `Util.Cfg.log_raises` |
| axis.py 367-395 | changing one parameter of a bar, nested bar or split axis resets `dist`, `title`, `subaxes` and others to their defaults and turns the axis into a plain bar axis | `Util.Cfg.bar_forgets` |
| axis.py 373-374, 544 | arguments `painter_...` of bar axes and `parter_...` of autosized axes raise `AttributeError` | `Util.Cfg.painter_raises` |
| texter.py 185 | arguments for the exponent texter have no effect | `Util.Cfg.exponenttexter_ignored` |
| texter.py 193, 203-207 | a texter made without `minnegexponent` keeps the old limit for negative exponents when `minexponent` is changed | `Util.Cfg.minnegexponent_kept` |
| pattern.py 55-72 | calling a pattern raises `ValueError` or ignores all arguments (inverted test of the marker) | `Util.Cfg.pattern_call` |
| axis.py 147-148, 200 | manual ticks are part of all variants and are multiplied by the divisor once for each variant laid out: they are painted at wrong positions | `Axis.Create.manual_shared` |
| axis.py 154-156 | without a parter, the manual ticks of the axis object are multiplied by the divisor each time the axis is used in a graph | `Axis.Create.manual_twice` |
| axis.py 135, 144, 148 | the divisor is rounded to ten digits for the ticks but not for the range; the last tick can be outside of the range | `Axis.Create.divisor_rounded` |
| axis.py 607-611, 694 | a column given to a linked axis after the axis it is linked to was created changes the range without a warning; the first axis is painted for another range | `Axis.Anchored.linked_adjust` |
| graph.py 385, 852 | `xvtickpoint` takes its argument as axis value instead of graph coordinate | `Axis.Anchored.xvtickpoint_wrong` |
| graph.py 371-372 | `graphxy(x=None)` raises `KeyError` unless `x2` or `xaxisat` is given | `Axis.Anchored.setup_raises` |
| normpath.py 740-752 | `arclentoparam(0)` of the curve `(0,0) (0,0) (1,0) (1,0)` is -0.5, a parameter outside of the curve which is mapped to the end of the curve | `NormPath.ByLength.toParam_false` |
| normpath.py 584-588 | `paramtoarclen` of unordered parameters of a curve adds the lengths of segments running backwards; the arc lengths of later items are wrong, too | `NormPath.ByLength.toArclens_false` |
| deco.py 320-338 | SVG: if a decorator removes part of the stroke (arrows) of a filled path, the stroke is written before the filling and covered by it; PS and PDF have it above | `Canvas.svg_stroke_below` |
| deco.py 314, 371 | SVG: ornaments inherit colour and line width given to `deco.stroked` or `deco.filled` | `Canvas.svg_ornament_styles` |
| font/font.py 729 | SVG: a text with transparency 1 (opacity 0) is drawn opaque | `Canvas.svg_text_opaque` |
| deco.py 347-359 | SVG: a transparent stroke makes the filling of the same path transparent, and is covered by it | `Canvas.svg_opacity_stale` |
| deco.py 545-548 | arrow on a path shorter than its head: the end of the stroke is extrapolated beyond the begin of the path, and a line outside of the path is stroked | `Deco.short_path_stroke` |
| deco.py 496, 518-531 | `deco.earrow([deco.filled.clear])(size=...)` and the like is filled again, as the defaults are merged a second time | `Deco.arrow_call_fills` |
| deformer.py 572-579 | an open path consisting of a single line is shortened at its beginning by the radius although it has no corner (`params[0]` and `params[-1]` are the same entry) | `Deform.single_line_cut` |
| deformer.py 268-279 | the arms for given end curvatures can be a pair solving neither equation (roots of the two eliminants are combined by nearness only) | `Deform.endgeometry_wrong` |
| deformer.py 126-141 | parallel tangents with curvature 0 at one end raise an AssertionError | `Deform.endgeometry_assertion` |
| deformer.py 515-518 | the documented vanishing derivative of the curvature in the middle of a smoothed corner fails for different radii at the two sides: the derivative of the curvature does not vanish in the middle | `Deform.corner_not_stationary` |
| deformer.py 437-447 | `cycloid` with an even number of half loops (default 10): the undeformed end is longer than `skiplast` by `2*radius*sin(turnangle)`; with `skiplast=0` the result does not reach the end of the path | `Deform.cycloid_even_ends`, `Deform.cycloid_end_missing` |
| deformer.py 437, 460 | `cycloid` with `turnangle=90`, documented to give connected circles: division by zero; near 90 degrees the control points run into the points of the curve | `Deform.cycloid_ninety`, `Deform.cycloid_near_ninety` |
| deformer.py 466-474 | `cycloid` with `sign=-1` on a curved path: the lengths of the control arms are those for the other side of the path | `Deform.cycloid_sign_wrong` |
| deformer.py 1735-1738, 1777, 1781 | `linesmoothed(atleast=True)` stores a negative tension, but `tensioncurve` takes the absolute value, so the result is the same as for `atleast=False` | `Deform.linesmoothed_atleast` |
| deformer.py 1194-1197 | `parallel(sharpoutercorners=True)` raises a `TypeError` where the path turns back: `intersection` returns `(None, None)` for parallel tangents | `Deform.Par.sharp_turn_back` |
| deformer.py 1128-1129 | `parallel` drops the whole parallel of a curve whose parallel is (almost) closed and whose end tangents make a turn to the right: the absolute value of the sine is missing | `Deform.Par.lost_parallel` |
| deformer.py 1077-1080 | a parallel with infinite curvature at the begin of a curve is not joined to what follows although it reaches the end: `elif` for the last piece, which is also the first one | `Deform.Par.end_not_joined`, `Deform.Par.single_piece_flags` |
| deformer.py 1279-1281 | the linear interpolation of the crossing has exchanged weights: it gives the mirror image of the crossing | `Deform.Par.interpolation_mirrored` |
| deformer.py 1266-1294 | `parallel(lookforcurvatures=2)` recurses for the same interval until Python gives up | `Deform.Par.two_endless` |
| graph/key.py 88 | the titles of a key overlap if a title with a large depth (several lines, aligned at the first one) is followed by one with a large height: the distance is the largest sum of height and depth, which does not bound the depth of one title and the height of the next | `Graph.Key.titles_overlap` |
| graph/key.py 102 | `columns=4` with five items gives three columns | `Graph.Key.fewer_columns` |
| text.py 335 | `texmessage.load_graphics` continues its loop with `quoted_file_pattern`: only the first graphics file is removed from the message (the second one raises an error), and the text of quoted files, including errors, is dropped | `TexMsg.graphics_second_left`, `TexMsg.graphics_loses_text` |
| text.py 292-306 | `texmessage.load` drops an error message if the brackets are not balanced | `TexMsg.load_loses_text` |
| text.py 152 | a line break between the bracket and the quote of a file name with brackets: the file is not found and the message is an error | `TexMsg.broken_before_quote` |
| text.py 363-372 | `texmessage.pattern` does not return for a pattern with an empty match | `TexMsg.pattern_endless` |
| text.py 1088, 1244-1247 | after a text failed (with a caught `TexResultError`), later texts show the page of the text before; the first output raises `ValueError`, further output is silently wrong | `TexEngine.failed_text_shifts`, `TexEngine.pages_by_count` |
| text.py 1304-1314 | with `texipc` all texts after a failed text raise `DVIError` or `AttributeError` | `TexEngine.ipc_lost`, `TexEngine.failed_text_ipc` |
| text.py 1095, 1232 | an exception at the end of TeX leaves the engine in `STATE_DONE` with unread texts: later output fails with `None` as the canvas | `TexEngine.failed_end` |
| text.py 1481 | `MultiEngine.preamble` keeps preambles which were refused or failed, and repeats them when TeX is started again | `TexEngine.refused_preamble` |
| text.py 1456-1458, 1507-1510 | if a repeated preamble fails, the new instance stays in use without the further preambles | `TexEngine.lost_preambles` |
| font/font.py 512-535 | `textpath` ignores `slant`: slanted fonts become upright with `textaspath` (the default in SVG) | `T1Text.slant_lost` |
| font/font.py 200-202 | `/Widths` are truncated by `"%i"`: in PDF the glyphs of a text drift to the left for fractional widths | `T1Text.pdf_drift`, `T1Text.pdf_error` |
| font/afmfile.py 1388-1398 | after a replacement the pair with the glyph before is not examined again: a ligature is left | `T1Text.ligature_left` |
| font/afmfile.py 1438 | `/Descent` is the top of the font bounding box if there is no descender | `T1Text.descent_is_top` |
| font/font.py 336-352 | a character code and a glyph name of one SVG font may share a character | `T1Text.svg_shared` |
| font/font.py 734 | `trafo_pt.outputSVGattrs` does not exist: slanted texts in SVG (as fonts) raise `AttributeError` | (not modelled) |
| text.py 515 | an invalid base line of a `parbox` makes a `ValueError` without raising it; the word `None` is typeset instead of the text | `TextAttr.invalid_baseline` |
| text.py 428-448 | `flushhalign` after `halign` drops the alignment of the box | `TextAttr.flush_drops_box` |
| text.py 585-591 | the last `size` given does not always win since sizes are not exclusive and are moved differently | `TextAttr.last_size_lost` |
| text.py 1749-1751 | `UnicodeEngine` looks for `mathmode` and then refuses all text attributes including it: the minus signs are unreachable, and default axis labels raise `ValueError` | `UniText.attrs_refused` |
| text.py 1737, 1740 | `raise NotImplemented()` is a `TypeError` | (reading) |
| graph/style.py 967-974 | a `rect` which exceeds the graph on both sides is only cut at the lower one (`elif`) and is drawn beyond the graph | `Points.rect_overhang` |
| graph/style.py 963-966 | on reversed axes rectangles which exceed the graph are not drawn | `Points.rect_reversed` |
| graph/style.py 980 | `rect` reads the column `color` instead of `colorname`: `KeyError` for other names | `Points.rect_colorname` |
| graph/style.py 2080 | the colours of a key are those of `i/res` at the positions `i/(res-1)`: the colour of the upper end is never shown | `Points.key_end` |
| graph/style.py 716 | points outside the graph have no impulse although a part of it is inside | `Points.impulse_lost` |
| graph/style.py 695, 702 | `impulses` uses the name of the column as the name of the axis: `KeyError` with `usenames` | (reading) |
| graph/graph.py 666 | `graphx.vgeodesic_el` has four arguments, `vgeodesic` two: styles calling it on a one-dimensional graph raise `TypeError` | (reading) |
| font/afmfile.py 1036 | `MetricsSets` reads a local variable which is never set: every file with this key fails with `NameError` | `Afm.metricssets_fails` |
| font/afmfile.py 1136-1141 | a comment in `StartDirection 1` ends the direction: later fields overwrite those of direction 0 | `Afm.comment_ends_direction` |
| font/afmfile.py 1090 | `StartDirection 2` is accepted, its fields then raise `IndexError` | `Afm.direction_two` |
| font/afmfile.py 1309-1339 | composites are checked but never stored | `Afm.composites_lost` |
| font/afmfile.py 1143-1190 | comments between character metrics raise `AFMError` | `Afm.comment_in_chars` |
| font/afmfile.py 1341-1374 | files which end early are accepted without complaint | `Afm.truncated` |
| font/afmfile.py 1276-1283 | pairs of `KPH` are stored by codes and are never found by names of glyphs | `Afm.codes_not_names` |
| font/afmfile.py 1350 | the last character of a file without final end of line is dropped | (`example` in `AfmProps.lean`) |
| font/pfmfile.py 26-249 | `space`, `hyphen` and `bullet` are several times in the dictionary, the last one counts: widths and kernings of spaces and hyphens are those of characters 160 and 173, and fonts which end before have none (`IndexError`) | `Pfm.ansi_space`, `Pfm.space_lost` |
| font/pfmfile.py 349 | for glyphs before the first character of the font the index is negative: the width of another glyph is returned | `Pfm.width_before_first` |
| font/pfmfile.py 360-364 | `resolvekernings` is defined twice; the first definition is never used | (reading) |
| dvi/encfile.py 38-51 | the exception class is called `ENFfileError`, and `filename` is not defined: every refused file is a `NameError` | `Encoding.wrong_length` |
| reader.py 144-151 | a text which ends with a token cannot be read (`IndexError`): an encoding file without a newline behind `def` | `Encoding.no_newline` |
| reader.py 144-148 | a bracket does not end a token: `]def` is one token | `Encoding.bracket_def` |
| font/t1file.py 698 | codes like `8#101` raise `ValueError` | `Encoding.radix_fails` |
| font/t1file.py 1001, 1035 | a removed `UniqueID` takes the newline with it which ends a comment: the next line becomes part of the comment | `Encoding.uid_comment` |
| text.py 661, 1096 | after a timeout in which TeX wrote nothing, the next `expect` raises `queue.Full` | `Monitor.full_after_timeout` |
| text.py 783-787, 737-740 | after a timeout, the late marker of the old expression ends the `wait` of the next expression | `Monitor.stale_marker` |
| text.py 703-722 | with `wait` 0 (and `showwait` not 0), `_wait` never succeeds, not even if the event is there | `Monitor.wait_zero` |
| normpath.py 446-469, 559-570 | a common point of a curve and a line can be missed when the curve touches the line: the replacing lines do not meet it | `NormPath.Cross.touching_missed` |
| normpath.py 463-473, 565 | `intersect` of a curve which is just a point and an item close to it is an endless recursion | `NormPath.Cross.point_endless` |
| normpath.py 1188-1195 | merging of close intersections is not transitive: of three in a row with neighbours closer than epsilon the first two are both reported, although the loop is to keep only one of close ones | `NormPath.SubCross.chain_double` |
| svgfile.py 367 | the dash pattern is a generator: dashed in the first file written, solid in all later ones | `Svg.Paint.dash_lost` |
| svgfile.py 367 | errors in `stroke-dasharray` (as the allowed word `none`) are not raised when the file is read but when the canvas is written | `Svg.Paint.dash_none` |
| svgfile.py 379 | `stroke-miterlimit` is a ratio but read as a length: 4 becomes 3 at resolution 96 | `Svg.Paint.miter_scaled` |
| svgfile.py 284-285 | `currentColor` paints nothing | `Svg.Paint.currentColor_lost` |
| svgfile.py 340-346 | `rgb(300,0,0)`, which SVG clips, keywords in other case and gradients are exceptions | `Svg.Paint.refused_colors` |
| svgfile.py 371-384 | the word `inherit` is a KeyError for line caps (also joins and fill rules) | `Svg.Paint.inherit_cap` |
| pattern.py 57-70 | conditions of `pattern.__call__` are inverted: without both types an exception, otherwise the arguments are ignored | `Pattern.call_useless` |
| pattern.py 337 | the box of a pattern is rounded in PDF: a given box clips differently than in PostScript | `Pattern.ps_pdf_differ` |
| pattern.py 375-378 | no `x` and `y` for the pattern in SVG: it is shifted against PostScript and PDF | `Pattern.svg_differs` |
| pattern.py 167-168 | hatched patterns have steps and so cannot be written to SVG | `Pattern.svg_hatched` |
| pdfextra.py 267-271, 482-484, 689-701 | names and values are written without escaping parentheses and backslashes | `Form.string_wrong` |
| pdfextra.py 247 | `processPDF` of fill styles is called with one argument too much: TypeError | `Form.field_fails` |
| canvas.py 225, pdfwriter.py 409 | the list of fill styles is shared by all contexts of a page: styles of finished canvases remain | `Form.styles_leak` |
| pdfextra.py 294, 317 | a default text of line ends only is an IndexError; empty lines are lost | `Form.texts_wrong` |
| pdfextra.py 121-126, 486 | values of radio buttons which differ in other characters than letters and digits collide; the value of the field is written unchanged | `Form.buttons_wrong` |
| pdfextra.py 500 | the rectangle of a button on a mirrored canvas is on the wrong side | `Form.button_mirrored` |
| document.py 166-167, pswriter.py 149, svgwriter.py 193 | files are opened before the number of pages is checked: an existing file is emptied by a call which is refused | `Output.old_content_lost` |
| document.py 35-40 | A5, A1 and A0 differ from ISO 216 by up to one millimetre | `Output.iso_formats` |
| graph/axis/positioner.py 65-68 | for a closed path with one end given, the base path is the whole path or an IndexError | `Axis.Along.base_closed_wrong` |
| graph/axis/axis.py 642-643, graph/graph.py 385, 852, 873 | `vtickpoint` multiplies a tuple by a length: always a TypeError; `xvtickpoint` is `tickpoint`, `zvtickpoint_pt` is `vtickpoint` | `Axis.Along.vtickpoint_wrong` |
| graph/style.py 1511, 1588, 1616 | `selectattrs` returns `None` for lists which are too short; unlike other styles, bars pass it on to `canvas.fill`, a TypeError | `Style.ChangeBar.short_list_fails` |
| svgwriter.py 211, 228 | a bitmap in a pattern cannot be written to SVG, unless there is one on the page itself: ValueError about the xlink namespace | `Svg.Write.image_in_pattern_fails` |
| epsfile.py 337-340 | an EPS file without final line end hides `%%EndDocument`; readers of the structure lose the following pages | `PSFile.embed_unended_fails` |
| pswriter.py 130 | a line end in the title puts the rest of the title into the program | `PSFile.title_fails` |
| pswriter.py 161-163 | the EPS file of an empty page has no bounding box and cannot be included by `epsfile` | `PSFile.empty_eps_fails` |
| pswriter.py 103-117 | options with their old names raise NameError (`logger` is not defined, `mash_as_bitmap` misspelled) | `PSFile.old_options_fail` |
| pswriter.py 115-117, mesh.py 116 | `meshasbitmap` raises AttributeError in (E)PS files: `meshasbitmapresolution` is never stored | `PSFile.mesh_bitmap_fails` |
| graph/axis/timeaxis.py 42-47 | `reverse`, and `min` later than `max`, are ignored by time axes | `Axis.Time.reverse_ignored` |
| graph/data.py 435-445 | in Python 3 no CBD file with a line can be read: TypeError | `Graph.Cbd.lines_fail` |
| pdfwriter.py 290-294 | a document with an empty page without paper format cannot be written (ValueError) | `Pdf.File.empty_page_fails` |
| pdfwriter.py 323-326 | `compresslevel` has no effect | `Pdf.File.compresslevel_ignored` |
| pdfwriter.py 362-368, svgwriter.py 179-185 | old names of options raise NameError | `Pdf.WriterOptions.writer_options_fail` |
| deco.py 1058-1066 | bars of braces are twice as thick as `barthickness` | `Deco.Brace.brace_bar_doubled` |
| deco.py 1026-1028 | `osmoothlength_pt` is computed from the changed `ismoothlength_pt`: bars of short braces run backwards | `Deco.Brace.brace_bars` |
| deco.py 1137-1138 | the left half of a slanted brace is slanted in the wrong direction: corner at the cap | `Deco.Brace.brace_cap` |
| deco.py 1180-1185 | reversed braces with `dist` are moved along the direction at the wrong end | `Deco.Brace.brace_dist_reversed` |
| dvi/dvifile.py 467 | groups open at the end of a page lose everything before them | `Dvi.Special.unclosed_group_lost` |
| dvi/dvifile.py 122-123, 315-318 | a marker name used again inside a group is not noticed and replaces the first one | `Dvi.Special.marker_twice_accepted` |
| dvi/dvifile.py 267-268 | exponents and signs of numbers in `pyxcolor` are dropped | `Dvi.Special.pyxcolor_exponents_lost` |
| dvi/dvifile.py 294-296 | EPS files whose names contain blanks or `=` raise an unrelated error | `Dvi.Special.eps_name_refused` |
| dvi/tfmfile.py 127-129 | additional header words are printed to the standard output | `Tfm.tfm_prints` |
| dvi/tfmfile.py 75-83 | headers of 3-11 and 13-16 words, allowed by the format, are refused | `Tfm.tfm_header_refused` |
| dvi/texfont.py 44 | check sums are read with a sign, and those below zero (half of all) are not compared | `Tfm.checksum_ignored` |
| path.py 1253-1255, 1283-1285 | `rotation_pt` and `trafo_pt` of paths take lengths in user units, not in points | `NormPath.Positions.path_rotation_pt_wrong` |
| normpath.py 1534-1535, 1671-1674 | `arclentoparam` of an iterator loses the first length silently | `NormPath.Positions.arclentoparam_iter` |
| normpath.py 1598-1600 | tuples of lengths raise a `TypeError` | `NormPath.Positions.positions_tuple` |
| normpath.py 1822 | `paramtoarclen([])` raises a `ValueError` | `NormPath.Positions.paramtoarclen_empty` |
| dvi/dvifile.py 410-427 | font definitions between the pages of a DVI file, which are legal, raise `DVIError` | `Dvi.File.dvi_fontdef_refused` |
| deco.py 907 | `colorgradient` on a closed path raises an `IndexError` | `Deco.Gradient.gradient_closed` |
| deco.py 907 | `colorgradient` with one step raises an `IndexError` | `Deco.Gradient.gradient_single` |
| `bitmap.py` 307, 466 | The size of a palette is computed with three components for all palettes: gray palettes are cut to the first third | `Bitmap.Colors.gray_palette_wrong` |
| `bitmap.py` 307, 466 | CMYK palettes with three or more entries are announced larger than they are, which is an error for a reader | `Bitmap.Colors.cmyk_palette_wrong` |
| `bitmap.py` 91 | `PSbinexpand=2` without `PSstoreimage` always raises a `TypeError` (`range` of a float) | `Bitmap.Colors.ps_hex_fails` |
| `deformer.py` 1359-1370 | If the end of a sub-path is a crossing (and so not in `endparams`), the next parameter is the first one of the next sub-path: a piece over two sub-paths, or a `KeyError` after the last one | `Deform.Rebuild.piece_sub_fails`, `Deform.Rebuild.key_error` |
| `deformer.py` 1541-1543, 1621-1635 | Two branches of a parallel path which touch with opposite directions fail an assertion, as the test does not depend on the order of the pair | `Deform.Continue.order_back_fails` |
| `deformer.py` 1703-1706 | Points between a curve and its parallel are not excluded | `Deform.Continue.curve_never` |
| `pdfextra.py` 267-271, 317-319, 482-486, 689-701 | Strings of form fields are written without escapes: single parentheses destroy the file, backslashes get lost | `Pdf.Strings.options_fail`, `Pdf.Strings.name_fails` |
| `text.py` 887-891 | `textpath` raises `AttributeError` for texts with rules (fractions, roots) or colors | `Text.Boxes.textpath_fails` |
| `text.py` 1637 | the anchor of a Unicode text is the lower left corner of its box instead of the origin of the text | `Text.Boxes.unicode_anchor` |
| `mesh.py` 63, 97-100 | meshes on a horizontal or vertical line and meshes without elements pass the check, but raise on output | `Mesh.Output.flat_fails`, `Mesh.Output.empty_fails` |
| `deco.py` 499, 521, 751, 763, `pattern.py` 186 | copies merge the defaults again, so attributes which clear a default are lost: `earrow([stroked, filled.clear])(size=...)` is filled | `Canvas.Draw.arrow_refilled`, `Canvas.Draw.hatch_thin` |
| `deformer.py` 697-714 | the end of an item gets a smaller parameter than points within 1e-8 before it, contrary to the order of the parameters | `Deform.Param.order_end` |
| `deformer.py` 697, 752-755 | the joint of two items is not recognised when the first one is longer than 1e8 times epsilon (1000 pt by default) | `Deform.Param.long_item` |
| `text.py` 1163-1167, 1050-1055 | `usefiles` are moved by `os.rename` whose errors are ignored: files on another file system than the temporary directory are not given to TeX, and are deleted at the end unless TeX writes one with the same extension | `Text.UseFiles.lost_device` |
| `text.py` 1048, 1163 | the extension of a used file starts at the last dot of the whole path: `../refs` is deleted | `Text.UseFiles.lost_path` |
| `text.py` 1165 | two used files with the same extension overwrite each other | `Text.UseFiles.lost_extension` |
| `normpath.py` 1564-1568 | `p += p` for a normpath never ends: the list is extended while it is iterated | `NormPath.Objects.iadd_self` |
| `normpath.py` 1797 | `a.join(b)` and `a << b` share the further sub-paths with `b`: changing the result changes `b` | `NormPath.Objects.joined_shared` |
| `normpath.py` 1894, 1904, 1913 | the parts of a split path share sub-paths with the path | `NormPath.Objects.split_shared` |
| `path.py` 1219-1220 | `normpath()` returns the cached object itself: changing it changes all later results for the path | `NormPath.Objects.cache_changed` |
| box.py 256-263 | `circlealignequal` ignores a box which never meets its circle if it comes first and raises `TypeError` if it comes behind another one | `Box.order_matters` |
| `config.py` 328-331, 337-340, 346-349 | a text instead of a number or boolean raises `ValueError` in spite of the default | `Config.Values.defaults_wrong` |
| `config.py` 319-322 | a value with a `%` (e.g. a directory name) which is no substitution is silently replaced by the default | `Config.Values.percent_hidden` |
| `config.py` 359-360 | an item of a list which contains `SPACE` is changed | `Config.Values.mark_changed` |
| `font/t1file.py` 1166-1167 | `from_PFA_bytes` searches strings in bytes: no font in ASCII form can be read (`TypeError`) | `T1.Embed.pfa_unreadable` |
| `font/t1file.py` 1065-1080 | a glyph without an outline (e.g. an empty `colon`) raises `TypeError` while the PDF file is written | `T1.Embed.info_raises` |
| `font/t1file.py` 1074 | `/FontBBox` is rounded towards zero and may cut glyphs | `T1.Embed.bbox_cuts` |
| `canvas.py` 478-519 | the exit code of Ghostscript is ignored, and `error` is always `None`, since `stderr` is not piped: failures pass without notice | `Canvas.Ghostscript.failure_unseen` |
| `canvas.py` 486, 504 | the temporary file (`delete=False`) stays when the writer raises or `input` is wrong | `Canvas.Ghostscript.temp_left` |
| `canvas.py` 436 | a resolution like 99.9 is cut to 99 | `Canvas.Ghostscript.resolution_cut` |
| `graph/axis/tick.py` 136-138 | `rational(12345678901)` is 12345678900: integers go through `%.10g`, too | `Tick.integer_changed` |
| path.py 717-722, normpath.py 1284-1289 | a clockwise arc at the begin of a path loses its remembered short piece when it is reversed: the path begins elsewhere (by less than epsilon) | `Path.begin_moved` |
| `epsfile.py` 105 | `read()` leaves a `str` as the buffer; the next call of the reader is a TypeError instead of an empty result or an IOError | `Eps.Calls.broken_after_rest` |
| `dvi/mapfile.py` 140 | PFM files are requested with the format of Type 1 fonts: `local` and `internal` only try `x.pfm.pfa` and `x.pfm.pfb`, never `x.pfm` | `MapFile.pfm_ignored` |
| `dvi/mapfile.py` 156 | a line with an encoding file and without `ReEncodeFont` requires an encoding with the name `None` | `MapFile.no_reencode` |
| `graph/axis/rater.py` 110 | two labels which touch without crossing (distance 0) are a ZeroDivisionError | `Axis.Layout.touching_iff` |
| `graph/axis/rater.py` 217-225 | layouts with one label are unsuitable; if all of several partitions have at most one label the axis cannot be created | `Axis.Layout.few_labels_fail` |
| `graph/axis/axis.py` 128 | with constant data at a fixed end of the axis, `fallbackrange` moves the fixed end | `Axis.fixed_end_moved` |
| `graph/graph.py` 210-215 | data whose `defaultstyles` is `None` are plotted with the styles of later data, but are a RuntimeError behind them | `Data.Styles.order_of_data` |
| `graph/data.py` 164 | the automatic title raises ValueError for file names with characters which are not printable ASCII | `Data.Styles.umlaut_fails` |
| `graph/data.py` 641 | joining data with title `None` (no entry in the key) raises TypeError unless a title is given | `Data.Styles.join_untitled` |
| `text.py` 1809 | `set(engine, *args)`: positional arguments of the engine are taken for `cls` and `mode`; AssertionError | `TextDefault.positional_refused` |
| `graph/graph.py` 362, `graph/key.py` 76 | `settextengine` of a graph changes neither the engine of its axes nor that of its key; the key uses the default engine of the time of drawing | `TextDefault.graph_engine_ignored`, `TextDefault.key_engine_differs` |
| `graph/axis/axis.py` 48 | the `textengine` of a link painter is ignored | `TextDefault.link_engine_iff`, `TextDefault.link_engine_ignored` |

Noticed while reading, without a theorem:

* path/normpath: an arc whose angles differ by an exact positive multiple of 360 is a full circle in PDF but empty in
  PostScript; `arct` with opposite directions; `normpath.__div__`;
  `append` of a pathitem to an empty normpath passes `self` as epsilon; `reversed` and `bbox` ignore a skipped line;
  curve intersection with a degenerate curve recurses forever (453).
* graph/axis: `autolinear.partfunction` catches `ArithmeticError` but `math.log` raises `ValueError`; `logarithmic.__call__`
  returns a linear axis (306); `timeaxis` passes `self` twice; manual ticks are changed by a divisor (144-146).
* bitmap.py: `asciihexstream` uses a float range (91); JPEG dpi constant 2.45 (203); indexed images assume RGB (307, 466);
  SVG bitmaps do not contribute to the bounding box.
* writers: `mergeregistry` of PS and SVG uses an attribute `resources` that does not exist; `logger` is not imported;
  `pattern.__call__` inverts its test (57-70); SVG strokes before it fills and keeps a stale opacity.
* fonts: `from_PFA_bytes` mixes strings and bytes; `lenIV -1`; commands after `return`/`endchar` are executed; negative
  subroutine numbers index from the end; `ENCfileError` is undefined; TFM headers longer than 18 words.
* graph/data.py: `cbdfile` compares bytes with strings; data without columns raise `AttributeError` (199); `conffile` uses
  the wrong cache; the patterns documented in the manual are exchanged.
* bitmap.py 560, svgfile.py 583: writing a bitmap, a mesh or an unparsed SVG file as SVG does not update the box; a pattern
  made of them cannot be written as SVG (`bitmap_pattern_fails`, C180).
* config.py: `locate` uses an undefined name (275). text.py 515: an error is built but not raised.
* metapost/path.py: with an "at least" tension a control point may coincide with its knot.

