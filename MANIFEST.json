{
 "claims": [
  {
   "property": "C01",
   "status": "proved",
   "theorems": [
    "PyX.BBox.add_upper",
    "PyX.BBox.add_least",
    "PyX.BBox.add_proper",
    "PyX.BBox.add_comm",
    "PyX.BBox.add_assoc",
    "PyX.BBox.add_empty",
    "PyX.BBox.iadd_eq_add",
    "PyX.BBox.sum_perm",
    "PyX.BBox.ofPoints_least",
    "PyX.BBox.center_mem",
    "PyX.BBox.size_spec"
   ],
   "note": "Boxes over an arbitrary ordered field."
  },
  {
   "property": "C02",
   "status": "partial",
   "theorems": [
    "PyX.BBox.mem_mul",
    "PyX.BBox.imul_eq_mul",
    "PyX.BBox.intersects_iff",
    "PyX.BBox.mul_proper",
    "PyX.BBox.mul_empty_partial",
    "PyX.BBox.disjoint_product_not_empty",
    "PyX.BBox.disjoint_product_pollutes"
   ],
   "note": "The product of disjoint boxes is not the empty box in the code (inverted box, proved as disjoint_product_not_empty); everything else is proved."
  },
  {
   "property": "C03",
   "status": "proved",
   "theorems": [
    "PyX.BBox.transformed_contains",
    "PyX.BBox.transformed_least",
    "PyX.BBox.transformed_proper",
    "PyX.BBox.transformed_one"
   ],
   "note": ""
  },
  {
   "property": "C04",
   "status": "proved",
   "theorems": [
    "PyX.BBox.enlarged_sides",
    "PyX.BBox.enlarged_add",
    "PyX.BBox.enlarged_cancel",
    "PyX.BBox.enlarged_mem"
   ],
   "note": ""
  },
  {
   "property": "C05",
   "status": "proved",
   "theorems": [
    "PyX.Trafo.mul_apply",
    "PyX.Trafo.mul_assoc",
    "PyX.Trafo.one_unit",
    "PyX.Trafo.chain_apply",
    "PyX.Trafo.ext_of_apply",
    "PyX.Trafo.ps_matrix_correct"
   ],
   "note": ""
  },
  {
   "property": "C06",
   "status": "proved",
   "theorems": [
    "PyX.Trafo.inverse_isSome",
    "PyX.Trafo.inverse_apply",
    "PyX.Trafo.inverse_mul",
    "PyX.Trafo.inverse_inverse"
   ],
   "note": ""
  },
  {
   "property": "C07",
   "status": "partial",
   "theorems": [
    "PyX.Trafo.rotate_fixes_center",
    "PyX.Trafo.rotate_distSq",
    "PyX.Trafo.rotate_add",
    "PyX.Trafo.rotate_unit",
    "PyX.Trafo.rotate_about",
    "PyX.Trafo.rotate_isSome",
    "PyX.Trafo.mirror_involutive",
    "PyX.Trafo.mirror_distSq",
    "PyX.Trafo.mirror_keeps_negative_line_partial",
    "PyX.Trafo.mirror_not_keeps_line",
    "PyX.Trafo.scale_about",
    "PyX.Trafo.svg_conjugate",
    "PyX.Trafo.svg_mul",
    "PyX.Trafo.slantPt_det",
    "PyX.Trafo.slantPt_origin_partial",
    "PyX.Trafo.slantPt_moves_center",
    "PyX.Trafo.slantPt_wrong_direction",
    "PyX.Trafo.slant_double_conversion",
    "PyX.Trafo.scale_origin"
   ],
   "note": "mirror(angle) mirrors at the line of direction -angle and slant does not keep its centre: proved as negations."
  },
  {
   "property": "C08",
   "status": "proved",
   "theorems": [
    "PyX.Unit.convert_eval",
    "PyX.Unit.inch_consistent",
    "PyX.Unit.convert_roundtrip",
    "PyX.Unit.history",
    "PyX.Unit.true_length",
    "PyX.Unit.own_scale",
    "PyX.Unit.compare_iff",
    "PyX.Unit.le_total_preorder"
   ],
   "note": "All length expressions, all histories of unit.set, over any ordered field."
  },
  {
   "property": "C09",
   "status": "partial",
   "theorems": [
    "PyX.Attr.merge_perm",
    "PyX.Attr.merge_order",
    "PyX.Attr.merge_sorted",
    "PyX.Attr.merge_sorted_nested",
    "PyX.Attr.merge_idem",
    "PyX.Attr.exclusive_last",
    "PyX.Attr.clear_class",
    "PyX.Attr.plain_all",
    "PyX.Attr.text_nested",
    "PyX.Attr.text_mutual",
    "PyX.Attr.text_not_idempotent",
    "PyX.Attr.text_idempotent_fails",
    "PyX.Attr.halign_keeps_boxhalign",
    "PyX.Attr.refine_given",
    "PyX.Attr.refine_mem"
   ],
   "note": "Surviving attributes, order and clear proved for all lists; sorting/idempotence need nested sort classes, which hold for the text/stroke attributes except size (counterexample proved)."
  },
  {
   "property": "C10",
   "status": "proved",
   "theorems": [
    "PyX.Attr.select_cyclic",
    "PyX.Attr.select_period",
    "PyX.Attr.select_noncyclic",
    "PyX.Attr.selectattrs_eq",
    "PyX.Attr.checkattrs_eq",
    "PyX.Attr.refine_none",
    "PyX.Attr.refine_allowed"
   ],
   "note": ""
  },
  {
   "property": "C11",
   "status": "partial",
   "theorems": [
    "PyX.Tick.initfromstring_val",
    "PyX.Tick.ofString_dec",
    "PyX.Tick.ofString_frac",
    "PyX.Tick.ofString_zero",
    "PyX.Tick.compare_val",
    "PyX.Tick.mul_val",
    "PyX.Tick.div_val",
    "PyX.Tick.power_val",
    "PyX.Tick.compare_neg_wrong",
    "PyX.Tick.power_zero_wrong",
    "PyX.Tick.ofNumber_near",
    "PyX.Tick.ofNumber_recovers",
    "PyX.Tick.ofNumber_zero",
    "PyX.Tick.formatG_val",
    "PyX.Tick.ex_tenth",
    "PyX.Tick.ex_layout",
    "PyX.Tick.integer_changed"
   ],
   "note": "All decimal/fraction strings (character-level), floats, products, quotients, powers; comparison correct for positive denominators. compare_neg_wrong/power_zero_wrong: the code accepts negative denominators and zero to a negative power; integer_changed: integers of more than ten digits are rounded."
  },
  {
   "property": "C12",
   "status": "proved",
   "theorems": [
    "PyX.Tick.merge_sorted",
    "PyX.Tick.merge_level",
    "PyX.Tick.merge_good",
    "PyX.Tick.merge_label",
    "PyX.Tick.levelAt_sorted",
    "PyX.Tick.maxlevels_spec",
    "PyX.Tick.merge_duplicates"
   ],
   "note": "Default mode for all sorted lists with positive denominators; merge_duplicates shows that sortedness of list2 is needed."
  },
  {
   "property": "C13",
   "status": "proved",
   "theorems": [
    "PyX.Parter.getticks_mem",
    "PyX.Parter.getticks_sorted",
    "PyX.Parter.extend_nearest",
    "PyX.Parter.extend_bounds",
    "PyX.Parter.part_mem",
    "PyX.Parter.part_level"
   ],
   "note": "Over any ordered field with floor; whole partfunction with several distances, levels included. Tolerance is the epsilon of the code."
  },
  {
   "property": "C14",
   "status": "proved",
   "theorems": [
    "PyX.Parter.walks_monotone",
    "PyX.Parter.walks_disjoint",
    "PyX.Parter.walks_form",
    "PyX.Parter.less_run",
    "PyX.Parter.more_run",
    "PyX.Parter.dists_first",
    "PyX.Parter.default_decade",
    "PyX.Parter.autoBase_spec"
   ],
   "note": "All steps, any variants within one decade; initial guess over the reals."
  },
  {
   "property": "C15",
   "status": "proved",
   "theorems": [
    "PyX.Axis.history_range",
    "PyX.Axis.history_congr",
    "PyX.Axis.history_perm",
    "PyX.Axis.init_ordered"
   ],
   "note": "the axis range is the hull of all adjusted values, whatever the order of the adjustments"
  },
  {
   "property": "C16",
   "status": "proved",
   "theorems": [
    "PyX.Axis.convert_bounds",
    "PyX.Axis.convert_mono",
    "PyX.Axis.convert_affine",
    "PyX.Axis.convert_mem",
    "PyX.Axis.logConvert_eq",
    "PyX.Axis.log_bounds",
    "PyX.Axis.log_mono",
    "PyX.Axis.log_ratio",
    "PyX.Axis.range_iff",
    "PyX.Axis.range_kept",
    "PyX.Axis.range_centered",
    "PyX.Axis.range_ends",
    "PyX.Axis.range_ends_outside"
   ],
   "note": "linear over any ordered field, logarithmic over the reals"
  },
  {
   "property": "C17",
   "status": "proved",
   "theorems": [
    "PyX.Axis.barAdjust_ok",
    "PyX.Axis.create_tiles",
    "PyX.Axis.create_spec",
    "PyX.Axis.Tiles.spec",
    "PyX.Axis.barConvert_mem"
   ],
   "note": "sub axes of a bar axis tile the unit interval"
  },
  {
   "property": "C18",
   "status": "partial",
   "theorems": [
    "PyX.Texter.decLoop_spec",
    "PyX.Texter.rawLabel_spec",
    "PyX.Texter.decimal_exact",
    "PyX.Texter.equalprecision_spec",
    "PyX.Texter.decimal_default",
    "PyX.Texter.store_spec",
    "PyX.Texter.intPart_filter",
    "PyX.Texter.period_misplaced",
    "PyX.Texter.padding_separators"
   ],
   "note": "exact without separator between the digits after the point; with one the period is misplaced (period_misplaced), so the full claim is false of the code"
  },
  {
   "property": "C19",
   "status": "partial",
   "theorems": [
    "PyX.Texter.gcd_eq",
    "PyX.Texter.reduce_spec",
    "PyX.Texter.shown_spec",
    "PyX.Texter.rationalText_spec",
    "PyX.Texter.rational_default",
    "PyX.Texter.equaldenom_subtick"
   ],
   "note": "text shape proved for undecorated numerators and denominators; with equaldenom a sub-tick makes labelling fail (equaldenom_subtick)"
  },
  {
   "property": "C20",
   "status": "partial",
   "theorems": [
    "PyX.T1.nextKey_eq",
    "PyX.T1.decoder_encoder",
    "PyX.T1.encoder_decoder",
    "PyX.T1.encoder_length",
    "PyX.T1.encoder_bytes",
    "PyX.T1.eexec_roundtrip",
    "PyX.T1.charstring_roundtrip_iff"
   ],
   "note": "Charstring encryption round-trips exactly when lenIV <= 4 (the code always prepends at most four bytes), proved as an equivalence."
  },
  {
   "property": "C21",
   "status": "partial",
   "theorems": [
    "PyX.T1.charstring_roundtrip_partial",
    "PyX.T1.charstring_roundtrip_false",
    "PyX.T1.code_overflow",
    "PyX.T1.setGet_roundtrip_partial"
   ],
   "note": "Holds for all integers except -2^31, which decodes to +2^31 (charstring_roundtrip_false)."
  },
  {
   "property": "C22",
   "status": "partial",
   "theorems": [
    "PyX.Ascii85.ascii85_roundtrip",
    "PyX.Ascii85.ascii85_legal",
    "PyX.Ascii85.lines_single",
    "PyX.Ascii85.lines_chunked_actual",
    "PyX.Ascii85.lines_chunked_partial",
    "PyX.Ascii85.lines_chunked_wrong"
   ],
   "note": "Round trip, legality and the single string line count are proved for all data; the line count announced for chunked images is wrong (lines_chunked_wrong)."
  },
  {
   "property": "C23",
   "status": "partial",
   "theorems": [
    "PyX.Reader.readU_put",
    "PyX.Reader.readS_putS",
    "PyX.Reader.readint_put",
    "PyX.Reader.readint_putS",
    "PyX.Reader.readint_eq",
    "PyX.Reader.readU_short",
    "PyX.Reader.readstring_field",
    "PyX.Reader.readint24_nonneg_partial",
    "PyX.Reader.readint24_wrong"
   ],
   "note": "All readers proved except readint24, which is wrong for negative numbers (readint24_wrong)."
  },
  {
   "property": "C24",
   "status": "partial",
   "theorems": [
    "PyX.Pfb.fromPFB_complete",
    "PyX.Pfb.fromPFB_sound",
    "PyX.Pfb.sencode_sdecode",
    "PyX.Pfb.outputPFB_fails",
    "PyX.Pfb.outputPFB_not_roundtrip"
   ],
   "note": "Reading is proved sound and complete for the format; writing in PFB form never succeeds (outputPFB_fails)."
  },
  {
   "property": "C25",
   "status": "proved",
   "theorems": [
    "PyX.Tfm.charInfo_fields"
   ],
   "note": ""
  },
  {
   "property": "C26",
   "status": "proved",
   "theorems": [
    "PyX.Tfm.convert_eq_tex",
    "PyX.Tfm.convert_rejects"
   ],
   "note": "z is taken as given; the float rounding int(round(q*tfmconv)) is not modelled."
  },
  {
   "property": "C27",
   "status": "partial",
   "theorems": [
    "PyX.Vf.parse_file_partial",
    "PyX.Vf.parse_long_wrong",
    "PyX.Vf.getchar_last",
    "PyX.Vf.getchar_none",
    "PyX.Vf.long_packet"
   ],
   "note": "Proved for files without long packets; long packets are misread (parse_long_wrong)."
  },
  {
   "property": "C28",
   "status": "partial",
   "theorems": [
    "PyX.Dvi.readpage_refines_partial",
    "PyX.Dvi.readpage_refines_novirt",
    "PyX.Dvi.spage_restrict",
    "PyX.Dvi.readpageBytes_partial",
    "PyX.Dvi.vf_setRule_wrong",
    "PyX.Dvi.vf_register_wrong",
    "PyX.Dvi.vf_first_wrong",
    "PyX.Dvi.dvi_not_correct"
   ],
   "note": "Proved for all pages without nop whose virtual fonts (any nesting) define number 0 first, advance no rule with scale /= 1 and set registers before use; unrestricted for pages without virtual fonts. Negation of the full claim proved with witnesses."
  },
  {
   "property": "C29",
   "status": "partial",
   "theorems": [
    "PyX.Dvi.decode_encodes",
    "PyX.Dvi.decodePage_encodes",
    "PyX.Dvi.decodeAll_encodes",
    "PyX.Dvi.readpageBytes_partial",
    "PyX.Dvi.nop_rejected",
    "PyX.Dvi.special_nonascii_rejected",
    "PyX.Dvi.all_accepted_fails"
   ],
   "note": "Every encoding of every command is decoded exactly; pages without nop/non-ASCII specials are accepted. nop on a page raises DVIError (negation proved)."
  },
  {
   "property": "C30",
   "status": "proved",
   "theorems": [
    "PyX.Pdf.registered_spec",
    "PyX.Pdf.getrefno_spec",
    "PyX.Pdf.writeObjs_spec",
    "PyX.Pdf.write_spec",
    "PyX.Pdf.refs_resolve",
    "PyX.Pdf.write_total"
   ],
   "note": "files below 10^10 bytes (the width of a table entry)"
  },
  {
   "property": "C31",
   "status": "proved",
   "theorems": [
    "PyX.Pdf.pdfstring_roundtrip",
    "PyX.Pdf.pdfstring_large"
   ],
   "note": "for byte-range characters as stated; pdfstring_large shows that others are lost"
  },
  {
   "property": "C32",
   "status": "partial",
   "theorems": [
    "PyX.Pdf.timezone_read",
    "PyX.Pdf.timezone_wrong",
    "PyX.Pdf.timezone_partial"
   ],
   "note": "the claim is false: the sign is inverted for every zone but UTC (timezone_wrong)"
  },
  {
   "property": "C33",
   "status": "partial",
   "theorems": [
    "PyX.Canvas.ps_state_restored",
    "PyX.Canvas.pdf_state_restored",
    "PyX.Canvas.pdf_text_sections_partial",
    "PyX.Canvas.pdf_text_outside",
    "PyX.Canvas.pdf_path_object",
    "PyX.Canvas.pdf_pattern_error"
   ],
   "note": "Saves/restores balanced and graphics state restored proved for every tree (PS, PDF). Text sections well formed for every tree unless textaspath is combined with fonts without font file, where the code is wrong (pdf_text_outside)."
  },
  {
   "property": "C34",
   "status": "partial",
   "theorems": [
    "PyX.Canvas.ps_picture_partial",
    "PyX.Canvas.ps_fillrule_ignored",
    "PyX.Canvas.ps_wrong_font",
    "PyX.Canvas.pdf_picture_partial",
    "PyX.Canvas.pdf_fillrule_ignored",
    "PyX.Canvas.pdf_field_styles_leak",
    "PyX.Canvas.build_attr",
    "PyX.Canvas.build_isSome",
    "PyX.Canvas.bbox_contains",
    "PyX.Canvas.output_bbox_contains",
    "PyX.Canvas.bbox_nested"
   ],
   "note": "The streams make exactly the marks of the picture of the tree (composed transformation, clips, style), for all trees outside the cases refuted by the negation theorems; the boxes contain everything painted."
  },
  {
   "property": "C35",
   "status": "partial",
   "theorems": [
    "PyX.Layer.layer_placed",
    "PyX.Layer.layer_frame",
    "PyX.Layer.layer_content",
    "PyX.Layer.layer_ancestors",
    "PyX.Layer.layer_good",
    "PyX.Layer.made_good",
    "PyX.Layer.layer_ok_iff",
    "PyX.Layer.failing_call_loses_layer",
    "PyX.Layer.above_itself_loses_layer",
    "PyX.Layer.failing_call_hides_layer",
    "PyX.Layer.failing_unchanged_partial"
   ],
   "note": "All of the claim for successful calls and all histories of them; 'a failing call leaves the canvas unchanged' is false (failing_call_loses_layer)."
  },
  {
   "property": "C36",
   "status": "partial",
   "theorems": [
    "PyX.Page.centred",
    "PyX.Page.fitted",
    "PyX.Page.margins_rejected",
    "PyX.Page.not_placed",
    "PyX.Page.contentBox_contains",
    "PyX.Page.flat_content_fails",
    "PyX.Page.rotate_quarter"
   ],
   "note": "Proved for all boxes of positive size; fitting content without width or height raises ZeroDivisionError (flat_content_fails)."
  },
  {
   "property": "C37",
   "status": "proved",
   "theorems": [
    "PyX.Color.gray_legal",
    "PyX.Color.rgb_legal",
    "PyX.Color.hsb_legal",
    "PyX.Color.cmyk_legal",
    "PyX.Color.gray_roundtrip",
    "PyX.Color.rgb_cmyk_roundtrip",
    "PyX.Color.cmyk_rgb_roundtrip",
    "PyX.Color.rgb_hsb_roundtrip",
    "PyX.Color.constructors_reject",
    "PyX.Color.mkGray_iff",
    "PyX.Color.mkRgb_iff",
    "PyX.Color.mkHsb_iff",
    "PyX.Color.mkCmyk_iff",
    "PyX.Color.cmyk_rgb_not_identity"
   ],
   "note": "Also for HSB and for all device functions with legal black generation; the round trip of RGB through CMYK is for the default device functions."
  },
  {
   "property": "C38",
   "status": "proved",
   "theorems": [
    "PyX.Color.hex_close",
    "PyX.Color.hex_exact",
    "PyX.Color.hex_string"
   ],
   "note": "Exact arithmetic."
  },
  {
   "property": "C39",
   "status": "proved",
   "theorems": [
    "PyX.Color.linGray_legal",
    "PyX.Color.linRgb_legal",
    "PyX.Color.linHsb_legal",
    "PyX.Color.linCmyk_legal",
    "PyX.Color.lin_ends",
    "PyX.Color.jet_legal",
    "PyX.Color.hue_legal",
    "PyX.Color.blackYellow_legal",
    "PyX.Color.select_param"
   ],
   "note": "All built-in gradients."
  },
  {
   "property": "C40",
   "status": "proved",
   "theorems": [
    "PyX.NormPath.at_eq_point",
    "PyX.NormPath.split_traces",
    "PyX.NormPath.segments_traces",
    "PyX.NormPath.segments_connected",
    "PyX.NormPath.segments_isSome"
   ],
   "note": "lines and Bezier curves over any field of characteristic 0; parameter lists of any length and order"
  },
  {
   "property": "C41",
   "status": "proved",
   "theorems": [
    "PyX.NormPath.bezierpolyrange_spec",
    "PyX.NormPath.bbox_tight",
    "PyX.NormPath.cbox_contains"
   ],
   "note": "over the reals; exact square roots"
  },
  {
   "property": "C42",
   "status": "proved",
   "theorems": [
    "PyX.NormPath.transformed_at",
    "PyX.NormPath.transformed_ends",
    "PyX.NormPath.transformed_mul",
    "PyX.NormPath.reversed_at",
    "PyX.NormPath.reversed_reversed",
    "PyX.NormPath.tangent_deriv",
    "PyX.NormPath.rotation_tangent",
    "PyX.NormPath.curvature_reversed",
    "PyX.NormPath.curvature_similar",
    "PyX.NormPath.xy_eq"
   ],
   "note": "items; exact arithmetic"
  },
  {
   "property": "C43",
   "status": "partial",
   "theorems": [
    "PyX.NormPath.intersect_sound_partial",
    "PyX.NormPath.intersect_complete",
    "PyX.NormPath.intersect_nonempty_partial",
    "PyX.NormPath.intersect_length",
    "PyX.NormPath.short_self_wrong"
   ],
   "note": "sound within epsilon and complete (exact for lines that are not almost parallel), except that the first line is shorter than epsilon and almost parallel: line 228 computes its middle wrongly (short_self_wrong)"
  },
  {
   "property": "C44",
   "status": "partial",
   "theorems": [
    "PyX.NormPath.Sub.reach_inv",
    "PyX.NormPath.Sub.connected",
    "PyX.NormPath.Sub.nearly_connected",
    "PyX.NormPath.Sub.auto_epsilon",
    "PyX.NormPath.Sub.closed_rejects",
    "PyX.NormPath.Sub.closed_accepts_without_epsilon",
    "PyX.NormPath.Sub.closed_split_wrong_end"
   ],
   "note": "connectivity over all operation histories; the claim fails for two cases proved as counterexamples: appending to closed sub-paths without epsilon, and splitting closed sub-paths whose last segment is shorter than epsilon"
  },
  {
   "property": "C45",
   "status": "proved",
   "theorems": [
    "PyX.NormPath.split_stretches",
    "PyX.NormPath.split_none",
    "PyX.NormPath.split_closed",
    "PyX.NormPath.Sub.segmentsOpen_pieces",
    "PyX.NormPath.Sub.segmentsOpen_none",
    "PyX.NormPath.Sub.Piece.ends",
    "PyX.NormPath.Sub.Piece.points",
    "PyX.NormPath.Sub.Piece.way",
    "PyX.NormPath.Sub.Piece.way_plain",
    "PyX.NormPath.Sub.Way.sound_up",
    "PyX.NormPath.Sub.Way.covers"
   ],
   "note": "pieces are built from parts following the original; exact point sets for epsilon None (with an epsilon, parts shorter than epsilon are dropped by append); parameters in any order, going back through a path reverses it"
  },
  {
   "property": "C46",
   "status": "proved",
   "theorems": [
    "PyX.NormPath.toArclen_toParam",
    "PyX.NormPath.toParam_toArclen",
    "PyX.NormPath.toArclen_ends",
    "PyX.NormPath.way_length",
    "PyX.NormPath.piece_length",
    "PyX.NormPath.split_lengths",
    "PyX.NormPath.pathToArclen_pathToParam",
    "PyX.NormPath.pathToParam_pathToArclen"
   ],
   "note": "lines of positive length; at the end of a sub-path arclentoparam gives the begin of the next sub-path; length is the variation in the plane as in C73"
  },
  {
   "property": "C47",
   "status": "partial",
   "theorems": [
    "PyX.Path.pdf_eq_ps_partial",
    "PyX.Path.pdf_line_after_close",
    "PyX.Path.pdf_close_raises"
   ],
   "note": "PDF operators draw the figures of the PostScript operators for all paths where only a moveto or arc follows a closepath, no empty sub-path is closed and no arct occurs; otherwise the claim is false: witnesses pdf_line_after_close (line lost) and pdf_close_raises (exception)"
  },
  {
   "property": "C48",
   "status": "partial",
   "theorems": [
    "PyX.Path.absPath_absolute",
    "PyX.Path.bbox_absolute",
    "PyX.Path.normpath_absolute",
    "PyX.Path.pdf_absolute",
    "PyX.Path.ps_absolute",
    "PyX.Path.context_follows_ps",
    "PyX.Path.svg_absolute_partial",
    "PyX.Path.svg_arct_wrong"
   ],
   "note": "bounding box, normpath, PDF and PostScript output proved for all paths; SVG for paths without arct; with arct after closepath or arc the SVG output uses a wrong current point (svg_arct_wrong)"
  },
  {
   "property": "C49",
   "status": "partial",
   "theorems": [
    "PyX.Path.arcbbox_tight",
    "PyX.Path.arc_ends",
    "PyX.Path.arcbbox_negative_radius"
   ],
   "note": "proved for radii >= 0 (smallest box); false for negative radii, which the code accepts (arcbbox_negative_radius)"
  },
  {
   "property": "C50",
   "status": "proved",
   "theorems": [
    "PyX.Deco.excluderange_sorted",
    "PyX.Deco.excluderange_covered",
    "PyX.Deco.excluderanges",
    "PyX.Deco.gaps_complement",
    "PyX.Deco.strokepath_gaps",
    "PyX.Deco.strokepath_closed"
   ],
   "note": "The ranges are an ordered-field parameter; overlapping requests and the closed path are covered."
  },
  {
   "property": "C51",
   "status": "partial",
   "theorems": [
    "PyX.Connector.arc_bulge",
    "PyX.Connector.arc_angle",
    "PyX.Connector.arc_straight",
    "PyX.Connector.curve_spec",
    "PyX.Connector.curve_opposite",
    "PyX.Connector.curve_default_wrong",
    "PyX.Connector.twolines_lengths",
    "PyX.Connector.twolines_direction1",
    "PyX.Connector.twolines_direction2_partial",
    "PyX.Connector.twolines_middle_partial",
    "PyX.Connector.twolines_two_lengths",
    "PyX.Connector.twolines_angles_partial",
    "PyX.Connector.twolines_count",
    "PyX.Connector.twolines_angles_wrong",
    "PyX.Connector.twolines_opposite_wrong"
   ],
   "note": "All connector curves before omitends/shortenpath over the reals. Fails in the code: two angles whose lines meet behind the first center (twolines_angles_wrong), angle and opposite length that cannot be met (twolines_opposite_wrong), default curve is not similar to the default arc (curve_default_wrong). Cutting by the boxes is not modelled."
  },
  {
   "property": "C52",
   "status": "partial",
   "theorems": [
    "PyX.Box.linealign_partial",
    "PyX.Box.extent_partial",
    "PyX.Box.circlealign_partial",
    "PyX.Box.pointdistance_partial",
    "PyX.Box.boxdistance_partial",
    "PyX.Box.line_den_ne",
    "PyX.Box.circle_den_ne",
    "PyX.Box.mem_edges",
    "PyX.Box.rect_convex",
    "PyX.Box.linealign_wrong",
    "PyX.Box.contained_not_raised"
   ],
   "note": "Exact for sides that are not almost parallel/perpendicular to the direction within the absolute tolerances of the code and not shorter than 1e-5; positive radius for circlealign. Without this the claim is false: linealign_wrong (alignment wrong by the size of the box). contained_not_raised: BoxCrossError is not raised for a box inside another."
  },
  {
   "property": "C53",
   "status": "proved",
   "theorems": [
    "PyX.Mesh.coords24_spec",
    "PyX.Mesh.coords24_empty",
    "PyX.Mesh.bbox_contains",
    "PyX.Mesh.mesh_data"
   ],
   "note": "Exact arithmetic instead of floats; an empty range is a division by zero (coords24_empty)."
  },
  {
   "property": "C54",
   "status": "proved",
   "theorems": [
    "PyX.Util.kwsplit_spec",
    "PyX.Util.kwsplit_raises"
   ],
   "note": "Dictionaries are association lists with distinct keys."
  },
  {
   "property": "C55",
   "status": "partial",
   "theorems": [
    "PyX.Config.names_spec",
    "PyX.Config.pro_never_tried",
    "PyX.Config.open_first",
    "PyX.Config.open_found",
    "PyX.Config.internal_serves",
    "PyX.Config.tool_serves",
    "PyX.Config.tool_nothing",
    "PyX.Config.local_serves",
    "PyX.Config.local_serves_partial",
    "PyX.Config.local_wrong",
    "PyX.Config.local_wrong_order",
    "PyX.Config.recursivedir_spec",
    "PyX.Config.recursivedir_order",
    "PyX.Config.repeated_request_differs",
    "PyX.Config.lsr_entry",
    "PyX.Config.lsr_serves",
    "PyX.Config.missing_lsr_hides",
    "PyX.Config.open_again",
    "PyX.Config.removed_gives_none",
    "PyX.Config.extension_last",
    "PyX.Config.extension_none",
    "PyX.Config.extension_dir"
   ],
   "note": "Order of locators, name variants, internal data, kpsewhich, recursive directories (all histories) and ls-R proved. Refuted: local lookups open only the last variant (late binding of the loop variable, line 89); the same request can give another file later (recursivedir cache overwritten); a missing ls-R file hides the other locators; a removed kpsewhich file gives None instead of IOError; extension .pro never tried. Not modelled: locate (NameError)."
  },
  {
   "property": "C56",
   "status": "partial",
   "theorems": [
    "PyX.MapFile.last_entry_wins",
    "PyX.MapFile.bad_number_fails",
    "PyX.MapFile.malformed_ignored",
    "PyX.MapFile.tokens_line",
    "PyX.MapFile.line_meaning",
    "PyX.MapFile.fragments",
    "PyX.MapFile.bad_number",
    "PyX.MapFile.malformed_not_ignored",
    "PyX.MapFile.separate_font_file_wrong",
    "PyX.MapFile.comment_ignored",
    "PyX.MapFile.blank_ignored",
    "PyX.MapFile.other_defines"
   ],
   "note": "Proved: last entry wins, lines raising ParseError are ignored, tokenisation and meaning of each token, PostScript fragments. Refuted parts: a SlantFont with a non-number raises an uncaught ValueError and aborts reading of everything (malformed_not_ignored); '< foo.pfb' with a blank is taken as an encoding (separate_font_file_wrong). Parsing of the number is a parameter."
  },
  {
   "property": "C57",
   "status": "proved",
   "theorems": [
    "PyX.Data.join_spec",
    "PyX.Data.join_rows"
   ],
   "note": "Also shows that the None placeholder (data.py:617) is never used."
  },
  {
   "property": "C58",
   "status": "partial",
   "theorems": [
    "PyX.Data.readLines_spec",
    "PyX.Data.file_partial",
    "PyX.Data.skiptail_partial",
    "PyX.Data.skiptail_exact_partial",
    "PyX.Data.skiptail_false"
   ],
   "note": "False as documented: with every > 1, skiptail // every rows are dropped, which may keep one row of the last skiptail lines (skiptail_false). Exact if every divides skiptail; at most one row more otherwise."
  },
  {
   "property": "C59",
   "status": "partial",
   "theorems": [
    "PyX.Data.conffile_partial",
    "PyX.Data.conffile_new_option_partial",
    "PyX.Data.conffile_false"
   ],
   "note": "False: an option that the first section lacks makes reading fail. Proved for files whose first section has all options."
  },
  {
   "property": "C60",
   "status": "proved",
   "theorems": [
    "PyX.T1.stripped_draws",
    "PyX.T1.strip_total",
    "PyX.T1.stripped_encoding",
    "PyX.T1.stripped_glyphs",
    "PyX.T1.stripped_subrs",
    "PyX.T1.flex_all_or_none",
    "PyX.T1.stripped_minimal",
    "PyX.T1.nested_div_fails"
   ],
   "note": "Specification is a separate Type 1 stack machine with arbitrary OtherSubrs results; charstrings are those the machine executes with return/endchar last and divisors written in the charstring (nested_div_fails shows the last restriction is needed). The text around the Subrs and CharStrings arrays and the UniqueID removal are not modelled."
  },
  {
   "property": "C61",
   "status": "partial",
   "theorems": [
    "PyX.MetaPost.angles_smooth",
    "PyX.MetaPost.angles_unique",
    "PyX.MetaPost.divisors_ne_zero",
    "PyX.MetaPost.run_smooth",
    "PyX.MetaPost.tangent_continuous",
    "PyX.MetaPost.smooth_knots",
    "PyX.MetaPost.leaves_given",
    "PyX.MetaPost.arrives_given",
    "PyX.MetaPost.first_direction",
    "PyX.MetaPost.last_direction",
    "PyX.MetaPost.segment_defined",
    "PyX.MetaPost.atleast_inside",
    "PyX.MetaPost.velocity_pos",
    "PyX.MetaPost.curls_straight",
    "PyX.MetaPost.drawn_unique",
    "PyX.MetaPost.reversed_fails",
    "PyX.MetaPost.leaves_angle",
    "PyX.MetaPost.arrives_angle"
   ],
   "note": "Full for the linear system of any size (existence, uniqueness, no division by zero), for the tangents at the knots of a run and for those of the segments drawn by a path, closed or not (smooth_knots, leaves_given, arrives_given). Partial because reversed_fails shows a division by zero in mp_velocity when a curve leaves and arrives against its chord; paths that end with a line are left out, see C92."
  },
  {
   "property": "C62",
   "status": "partial",
   "theorems": [
    "PyX.Roots.quadratic_roots",
    "PyX.Roots.cubic_roots_partial",
    "PyX.Roots.cubic_wrong",
    "PyX.Roots.cubic_false",
    "PyX.Roots.quartic_roots_partial",
    "PyX.Roots.quartic_false",
    "PyX.Roots.realpolyroots_partial",
    "PyX.Roots.realpolyroots_quadratic"
   ],
   "note": "False for cubics with zero discriminant and R > 0 (mathutils.py:80-82 has the wrong sign): cubic_false, quartic_false. Proved in all other cases."
  },
  {
   "property": "C63",
   "status": "proved",
   "theorems": [
    "PyX.Bitmap.split_get",
    "PyX.Bitmap.interleave_split",
    "PyX.Bitmap.imagedata_separate",
    "PyX.Bitmap.imagedata_interleaved"
   ],
   "note": ""
  },
  {
   "property": "C64",
   "status": "proved",
   "theorems": [
    "PyX.BBox.lowres_least",
    "PyX.BBox.lowres_empty"
   ],
   "note": ""
  },
  {
   "property": "C65",
   "status": "proved",
   "theorems": [
    "PyX.Pfb.pfaBody_roundtrip",
    "PyX.Pfb.pfaBody_lines",
    "PyX.Pfb.hexLines_line"
   ],
   "note": "Concatenation of the hex lines decodes to the data for all data."
  },
  {
   "property": "C66",
   "status": "proved",
   "theorems": [
    "PyX.Parter.logTicks_spec",
    "PyX.Parter.log_part_spec"
   ],
   "note": "Real logarithm instead of floats."
  },
  {
   "property": "C67",
   "status": "partial",
   "theorems": [
    "PyX.Parter.logExtend_spec_partial",
    "PyX.Parter.logExtend_negative",
    "PyX.Parter.negative_flags_swapped"
   ],
   "note": "Proved for positive ranges. For negative ranges the code exchanges the flags (negative_flags_swapped); logExtend_negative describes what happens."
  },
  {
   "property": "C68",
   "status": "proved",
   "theorems": [
    "PyX.Axis.cube_spec",
    "PyX.Axis.cube_mono",
    "PyX.Axis.distRate_spec",
    "PyX.Axis.countLevels_spec",
    "PyX.Axis.rateticks_nonneg"
   ],
   "note": ""
  },
  {
   "property": "C69",
   "status": "partial",
   "theorems": [
    "PyX.Axis.choose_best",
    "PyX.Axis.choose_forever",
    "PyX.Axis.search_spec"
   ],
   "note": "holds if no laid-out canvas is empty (choose_forever: a painter drawing nothing makes the loop run forever) and layout ratings are not negative"
  },
  {
   "property": "C70",
   "status": "proved",
   "theorems": [
    "PyX.Axis.whileSub_spec",
    "PyX.Axis.whileAdd_spec",
    "PyX.Axis.rotateText_spec"
   ],
   "note": ""
  },
  {
   "property": "C71",
   "status": "partial",
   "theorems": [
    "PyX.Texter.analyse_spec",
    "PyX.Texter.analyse_neg_denom",
    "PyX.Texter.decimal_map",
    "PyX.Texter.default_exact",
    "PyX.Texter.uniform_spec",
    "PyX.Texter.want_spec"
   ],
   "note": "for ticks with positive denominator; for a negative denominator the sign is lost (analyse_neg_denom)"
  },
  {
   "property": "C72",
   "status": "partial",
   "theorems": [
    "PyX.Pdf.annotations_shared",
    "PyX.Pdf.annotations_partial"
   ],
   "note": "the claim is false for several pages (annotations_shared); true within one registry"
  },
  {
   "property": "C73",
   "status": "proved",
   "theorems": [
    "PyX.NormPath.length_segments",
    "PyX.NormPath.chord_le",
    "PyX.NormPath.length_le",
    "PyX.NormPath.arclen_bounds",
    "PyX.NormPath.arclen_fuel",
    "PyX.NormPath.arclen_terminates",
    "PyX.NormPath.arclen_accurate",
    "PyX.NormPath.line_arclen"
   ],
   "note": "true length is the variation of the curve in the plane; the recursion is bounded explicitly"
  },
  {
   "property": "C74",
   "status": "proved",
   "theorems": [
    "PyX.Bitmap.png_roundtrip",
    "PyX.Bitmap.png_total"
   ],
   "note": "Read back with a PNG reader written after the PNG specification; zlib.compress and zlib.crc32 are parameters (inflate after compress is the identity, crc32 below 2^32)."
  },
  {
   "property": "C75",
   "status": "proved",
   "theorems": [
    "PyX.Data.splitatvalue_spec"
   ],
   "note": ""
  },
  {
   "property": "C76",
   "status": "proved",
   "theorems": [
    "PyX.Data.points_spec",
    "PyX.Data.points_nil",
    "PyX.Data.values_spec",
    "PyX.Data.pyIndex_counts"
   ],
   "note": ""
  },
  {
   "property": "C77",
   "status": "proved",
   "theorems": [
    "PyX.Data.derive_spec",
    "PyX.Data.derive_isSome",
    "PyX.Data.resolve_spec",
    "PyX.Data.derive_even"
   ],
   "note": "Evaluation of Python expressions is a parameter."
  },
  {
   "property": "C78",
   "status": "proved",
   "theorems": [
    "PyX.Data.samples_spec",
    "PyX.Data.samples_range",
    "PyX.Data.samples_one",
    "PyX.Data.function_spec",
    "PyX.Data.logSamples_spec",
    "PyX.Data.param_spec",
    "PyX.Data.param_uneven"
   ],
   "note": "One point divides by zero; tuples of wrong size are noticed for the last point only (param_uneven)."
  },
  {
   "property": "C79",
   "status": "proved",
   "theorems": [
    "PyX.Data.fields_render",
    "PyX.Data.fields_patterns",
    "PyX.Data.splitValues_render",
    "PyX.Data.values_written"
   ],
   "note": ""
  },
  {
   "property": "C80",
   "status": "partial",
   "theorems": [
    "PyX.Data.names_partial",
    "PyX.Data.names_false"
   ],
   "note": "False: an empty comment line clears the names (names_false). Proved: the names are the fields of the last comment line before the first selected line."
  },
  {
   "property": "C81",
   "status": "proved",
   "theorems": [
    "PyX.Path.arct_spec",
    "PyX.Path.arct_straight",
    "PyX.Path.arctItems_error"
   ],
   "note": "opposite directions (turn by exactly 180 degrees) depend on floating point rounding and are not covered"
  },
  {
   "property": "C82",
   "status": "proved",
   "theorems": [
    "PyX.Path.arctobezierpath_spec",
    "PyX.Path.arctobcurve_near",
    "PyX.Path.arctobcurve_middle",
    "PyX.Path.arctobcurve_tangent",
    "PyX.Path.arctobcurve_distance",
    "PyX.Path.bezierEndAngle_spec"
   ],
   "note": ""
  },
  {
   "property": "C83",
   "status": "proved",
   "theorems": [
    "PyX.Path.bbox_smallest"
   ],
   "note": "for arcs with radius >= 0"
  },
  {
   "property": "C84",
   "status": "partial",
   "theorems": [
    "PyX.Path.svg_eq_ps_partial",
    "PyX.Path.svgArcs_correct",
    "PyX.Path.svgArcs_last",
    "PyX.Path.svgEndAngle_spec",
    "PyX.Path.svg_arc_item",
    "PyX.Path.svg_arcn_item",
    "PyX.Path.svg_arct_wrong"
   ],
   "note": "whole paths without arcs; arcs item by item; false for arct after closepath or arc (svg_arct_wrong)"
  },
  {
   "property": "C85",
   "status": "partial",
   "theorems": [
    "PyX.Box.linealignequal_partial",
    "PyX.Box.tile_partial",
    "PyX.Box.tile_wrong",
    "PyX.Box.bbox_spec",
    "PyX.Box.center_spec",
    "PyX.Box.reltransform_spec",
    "PyX.Box.rect_center",
    "PyX.Box.circle_vec",
    "PyX.Box.circlealignequal_partial",
    "PyX.Box.unreachable_first",
    "PyX.Box.unreachable_later",
    "PyX.Box.order_matters"
   ],
   "note": "tile is wrong for directions not of length one (tile_wrong), proved for length one; circlealignequal for positive radii, its error for a box that never meets its circle depends on the order (order_matters)."
  },
  {
   "property": "C86",
   "status": "proved",
   "theorems": [
    "PyX.Bitmap.ps_placement",
    "PyX.Bitmap.ps_placement_total",
    "PyX.Bitmap.pdf_placement",
    "PyX.Bitmap.svg_placement",
    "PyX.Bitmap.bitmap_placement",
    "PyX.Bitmap.bitmap_size"
   ],
   "note": "Exact arithmetic over a field; number formatting not included."
  },
  {
   "property": "C87",
   "status": "partial",
   "theorems": [
    "PyX.Bitmap.each_painted_partial",
    "PyX.Bitmap.same_bytes_wrong",
    "PyX.Bitmap.each_painted_wrong",
    "PyX.Bitmap.same_colours_wrong"
   ],
   "note": "The claim is false: names are made from the hash of the colour data only (lines 433, 543-545), so bitmaps differing only in size, mode or alpha channel share one object; proved for documents whose bitmaps differ in data or compression. SHA1 is an injective function parameter (each_painted_partial) or arbitrary (negations)."
  },
  {
   "property": "C88",
   "status": "proved",
   "theorems": [
    "PyX.Bitmap.stringarray"
   ],
   "note": ""
  },
  {
   "property": "C89",
   "status": "partial",
   "theorems": [
    "PyX.Bitmap.jpeg_accepts",
    "PyX.Bitmap.comment_ends_image",
    "PyX.Bitmap.extended_rejected"
   ],
   "note": "Proved for files whose other segments contain no byte 255 (except stuffed zeros and markers without meaning). Refuted: contents of other segments are searched for markers (comment_ends_image); frames of type 0xc1 are rejected. Nested thumbnails are in the model, not in the theorem."
  },
  {
   "property": "C90",
   "status": "proved",
   "theorems": [
    "PyX.T1.data2_roundtrip",
    "PyX.T1.readSubrArray_write",
    "PyX.T1.readCharDict_write",
    "PyX.T1.gettoken_write",
    "PyX.T1.gettoken_sound",
    "PyX.T1.data2decode_sound",
    "PyX.T1.comments_not_skipped"
   ],
   "note": "Byte level; int() restricted to digit strings; names ASCII. The removal of UniqueID entries from the written data is not modelled. comments_not_skipped: the bytes tokenizer does not skip comments although documented."
  },
  {
   "property": "C91",
   "status": "partial",
   "theorems": [
    "PyX.T1.glyph_path",
    "PyX.T1.composite_path_partial",
    "PyX.T1.path_of_drawing",
    "PyX.T1.composite_width_wrong",
    "PyX.T1.accent_place_wrong",
    "PyX.T1.fraction_wrong",
    "PyX.T1.counter_wrong",
    "PyX.T1.below_wrong"
   ],
   "note": "glyph_path: for glyphs without components and charstrings with integer quotients and standard, tidy OtherSubrs calls (Spec.tidy) the path draws the outline and has the width; composite_path_partial: outline of composite glyphs with zero sidebearing. Disproved in general: width of composite glyphs, place of accents, fractions, counter hints, operands below callothersubr."
  },
  {
   "property": "C92",
   "status": "partial",
   "theorems": [
    "PyX.MetaPost.draws_links_partial",
    "PyX.MetaPost.closed_curves",
    "PyX.MetaPost.closing_line_missing",
    "PyX.MetaPost.control_overwritten",
    "PyX.MetaPost.last_line_keepangles",
    "PyX.MetaPost.smooth_before_line",
    "PyX.MetaPost.smooth_behind_line",
    "PyX.MetaPost.line_not_closed"
   ],
   "note": "Proved for every path whose last link is not a line, without gaps if it is closed, and without a controlcurve before a line that keeps angles. In the excluded cases the property is false, shown by concrete paths: the closing line is never drawn, keepangles overwrites a control point; also, smooth knots next to lines are not changed to rough ones and closed paths with a line are not closed."
  },
  {
   "property": "C93",
   "status": "proved",
   "theorems": [
    "PyX.MetaPost.keeps_before",
    "PyX.MetaPost.keeps_behind",
    "PyX.MetaPost.straight_made"
   ],
   "note": "Lines that close the path are never drawn (C92) and are left out. straight_made shows that a path meeting the hypotheses exists."
  },
  {
   "property": "C94",
   "status": "partial",
   "theorems": [
    "PyX.Eps.readline_line",
    "PyX.Eps.readline_ok",
    "PyX.Eps.readline_eof",
    "PyX.Eps.read_spec",
    "PyX.Eps.bbox_header_partial",
    "PyX.Eps.bbox_atend_fails"
   ],
   "note": "Proved for boxes given in the header. A box deferred to the trailer by (atend) is never read: bytes are compared with a string, proved as bbox_atend_fails."
  },
  {
   "property": "C95",
   "status": "proved",
   "theorems": [
    "PyX.Eps.placed_box",
    "PyX.Eps.placed_size",
    "PyX.Eps.clip_box",
    "PyX.Eps.untranslated_not_aligned"
   ],
   "note": "For translatebbox (the default) and positive factors; untranslated_not_aligned shows what the alignment means otherwise."
  },
  {
   "property": "C96",
   "status": "partial",
   "theorems": [
    "PyX.Path.atEnd_current_partial",
    "PyX.Path.atBegin_first_partial",
    "PyX.Path.atEnd_near",
    "PyX.Path.atBegin_near",
    "PyX.Path.begin_moved"
   ],
   "note": "Exact unless the path begins with a clockwise arc; in that case exact up to epsilon (atEnd_near, atBegin_near), and the exact claim is false (begin_moved)."
  },
  {
   "property": "C97",
   "status": "partial",
   "theorems": [
    "PyX.Svg.toPath_draws_partial",
    "PyX.Svg.quadTo_points",
    "PyX.Svg.smooth_after_quadratic",
    "PyX.Svg.quad_smooth_after_cubic",
    "PyX.Svg.missing_number",
    "PyX.Svg.after_close",
    "PyX.Svg.after_close_fails"
   ],
   "note": "Proved for command sequences without arcs in which smooth commands follow commands of their own kind and closepath is followed by moveto; the other cases violate the claim (witnesses)."
  },
  {
   "property": "C98",
   "status": "partial",
   "theorems": [
    "PyX.Svg.readValue_text",
    "PyX.Svg.toFloat_text",
    "PyX.Svg.toFloats_text",
    "PyX.Svg.findCmds_spec",
    "PyX.Svg.path_data_read_partial",
    "PyX.Svg.trailing_point",
    "PyX.Svg.pt_in_path",
    "PyX.Svg.arc_rotation_scaled"
   ],
   "note": "Proved for numbers with a digit behind the decimal point; a trailing decimal point is not read and the rotation of arcs is scaled (witnesses)."
  },
  {
   "property": "C99",
   "status": "partial",
   "theorems": [
    "PyX.Svg.toTrafo_partial",
    "PyX.Svg.matrix_transposed",
    "PyX.Svg.skew_order",
    "PyX.Svg.skew_order_wrong"
   ],
   "note": "Proved for translations, scalings and rotations, and a last item that is a skew or a symmetric matrix; matrices are transposed and composed in the wrong order (witnesses)."
  },
  {
   "property": "C100",
   "status": "partial",
   "theorems": [
    "PyX.Svg.viewBox_partial",
    "PyX.Svg.noViewBox",
    "PyX.Svg.no_size",
    "PyX.Svg.fileTrafo_place",
    "PyX.Svg.fileTrafo_refused",
    "PyX.Svg.unparsed_same",
    "PyX.Svg.aspect_ignored",
    "PyX.Svg.clip_scaled"
   ],
   "note": "Placement proved in full for files; the viewBox is right if it has the shape of the viewport. Stretched pictures and the clip in user units violate the claim (witnesses)."
  },
  {
   "property": "C101",
   "status": "partial",
   "theorems": [
    "PyX.Svg.endpointarc_partial",
    "PyX.Svg.endpointarc_line",
    "PyX.Svg.endpointarc_equal"
   ],
   "note": "Full specification for different end points and non-zero radii; equal end points make the code fail (witness)."
  },
  {
   "property": "C102",
   "status": "partial",
   "theorems": [
    "PyX.Svg.Tree.file_partial",
    "PyX.Svg.Tree.root_paint",
    "PyX.Svg.Tree.defs_drawn",
    "PyX.Svg.Tree.inner_svg_loses"
   ],
   "note": "Proved for all trees of groups and shapes below a root without paint; witnesses for the other cases."
  },
  {
   "property": "C103",
   "status": "partial",
   "theorems": [
    "PyX.Style.line_clipped_partial",
    "PyX.Style.line_connected",
    "PyX.Style.line_escapes"
   ],
   "note": "Positions with a coordinate outside by no more than the tolerance (1e-10) are excluded: for these the claim is false (line_escapes)."
  },
  {
   "property": "C104",
   "status": "partial",
   "theorems": [
    "PyX.Style.errorbar_clip_partial",
    "PyX.Style.errorbar_nothing",
    "PyX.Style.errorbar_reversed"
   ],
   "note": "Ends in the order of graph coordinates only (false on reversed axes: errorbar_reversed); no coordinate outside by less than the tolerance."
  },
  {
   "property": "C105",
   "status": "partial",
   "theorems": [
    "PyX.Style.Hist.histogram_partial",
    "PyX.Style.Hist.clip_spec",
    "PyX.Style.Hist.edge_hull",
    "PyX.Style.Hist.fillable_steps_partial",
    "PyX.Style.Hist.rectangle",
    "PyX.Style.Hist.auto_ranges",
    "PyX.Style.Hist.auto_neighbours",
    "PyX.Style.Hist.rectangle_no_fromvalue"
   ],
   "note": "Numbers outside by less than the tolerance, and neighbours which are adjacent only up to the tolerance, are excluded; without fromvalue fillable rectangles raise."
  },
  {
   "property": "C106",
   "status": "partial",
   "theorems": [
    "PyX.Graph.axes_orthonormal",
    "PyX.Graph.central_is_projection",
    "PyX.Graph.central_segment",
    "PyX.Graph.central_zindex",
    "PyX.Graph.central_angle",
    "PyX.Graph.parallel_angle",
    "PyX.Graph.parallel_is_projection",
    "PyX.Graph.geodesic",
    "PyX.Graph.faces_central",
    "PyX.Graph.faces_parallel",
    "PyX.Graph.front_axes",
    "PyX.Graph.axes_hidden",
    "PyX.Graph.axes_edges",
    "PyX.Graph.ticks_partial",
    "PyX.Graph.ticks_skewed",
    "PyX.Graph.cap_too_long"
   ],
   "note": "All parts hold except the tick direction of x, x2, y, y2 axes moved by xy12axesat, which starts at height 0 instead of at the axis (ticks_skewed), and the length of error bar caps, which is scaled by twice the axis scale (cap_too_long)."
  },
  {
   "property": "C107",
   "status": "partial",
   "theorems": [
    "PyX.Style.Bar.addsubvalue_components",
    "PyX.Style.Bar.barpos_right",
    "PyX.Style.Bar.stacked_right_partial",
    "PyX.Style.Bar.stacked_available",
    "PyX.Style.Bar.stacked_valid_wrong",
    "PyX.Style.Bar.stack_step",
    "PyX.Style.Bar.stack_sum",
    "PyX.Style.Bar.bar_region",
    "PyX.Style.Bar.bar_nothing",
    "PyX.Style.Bar.key_tiles",
    "PyX.Graph.bar_faces"
   ],
   "note": "Validity of a stacked position fails if the position below is valid and the stacked value is outside of the graph (stacked_valid_wrong). Everything else is proved."
  },
  {
   "property": "C108",
   "status": "proved",
   "theorems": [
    "PyX.Graph.XY.axes_boundary",
    "PyX.Graph.XY.axes_outwards",
    "PyX.Graph.XY.axes_face_graph",
    "PyX.Graph.XY.grid_path",
    "PyX.Graph.XY.axis_at",
    "PyX.Graph.XY.axis_gap",
    "PyX.Graph.XY.geodesic2",
    "PyX.Graph.XY.cap",
    "PyX.Graph.XY.size_ratio",
    "PyX.Graph.XY.keygraph_beyond",
    "PyX.Graph.XY.key_placed",
    "PyX.Graph.XY.key_columns",
    "PyX.Graph.XY.key_offsets",
    "PyX.Graph.XY.xvgridpath_flipped",
    "PyX.Graph.XY.base_path"
   ],
   "note": "The public xvgridpath/yvgridpath ignore flipped (finding); the grid paths of axes are right."
  },
  {
   "property": "C109",
   "status": "proved",
   "theorems": [
    "PyX.Graph.Item.register_valid",
    "PyX.Graph.Item.needs_met",
    "PyX.Graph.Item.nothing_added",
    "PyX.Graph.Item.defaults_found",
    "PyX.Graph.Item.defaults_registered",
    "PyX.Graph.Item.defaults_cycle",
    "PyX.Graph.Item.pos_twice",
    "PyX.Graph.Item.draw_spec",
    "PyX.Graph.Item.provided_first",
    "PyX.Graph.Item.stylesid_inj",
    "PyX.Graph.Item.select_spec",
    "PyX.Graph.Item.select_distinct"
   ],
   "note": "Termination is proved for registries without cycles of needs, which includes PyX's own; defaults_cycle shows the condition is needed."
  },
  {
   "property": "C110",
   "status": "partial",
   "theorems": [
    "PyX.Graph.Steps.once",
    "PyX.Graph.Steps.in_order",
    "PyX.Graph.Steps.draw_after",
    "PyX.Graph.Steps.axis_after",
    "PyX.Graph.Steps.output_complete",
    "PyX.Graph.Steps.ranges_complete",
    "PyX.Graph.Steps.plot_refused",
    "PyX.Graph.Steps.key_complete_partial",
    "PyX.Graph.Steps.key_lost",
    "PyX.Graph.Steps.svg_unfinished"
   ],
   "note": "All claims proved except completeness of the key when it was painted before plotting (refuted by key_lost) and of SVG output (refuted by svg_unfinished)."
  },
  {
   "property": "C111",
   "status": "partial",
   "theorems": [
    "PyX.Style.Columns.pos_columns",
    "PyX.Style.Columns.pos_draw_partial",
    "PyX.Style.Columns.pos_same_column",
    "PyX.Style.Columns.range_columns",
    "PyX.Style.Columns.range_draw",
    "PyX.Style.Columns.range_adjust"
   ],
   "note": "All claims proved except for positions when one column is used for several axes by usenames: then it is converted by the last of them (refuted by pos_same_column)."
  },
  {
   "property": "C112",
   "status": "partial",
   "theorems": [
    "PyX.Style.Grid.grid_points",
    "PyX.Style.Grid.grid_exact",
    "PyX.Style.Grid.grid_colors_partial",
    "PyX.Style.Grid.color_replaced",
    "PyX.Style.Grid.color_first",
    "PyX.Style.Grid.grid_lines_partial",
    "PyX.Style.Grid.density_accepts",
    "PyX.Style.Grid.density_image",
    "PyX.Style.Grid.density_placed"
   ],
   "note": "Colors are those of the last point at a place only if no position is missing (color_replaced, color_first: an unavailable point overwrites the color of the previous one, or raises if it is the first). Lines under the condition of C103 about the tolerances of clipping."
  },
  {
   "property": "C113",
   "status": "partial",
   "theorems": [
    "PyX.Style.Surface.surface_parallel",
    "PyX.Style.Surface.surface_central_partial",
    "PyX.Style.Surface.surface_wrong",
    "PyX.Style.Surface.surface_triangles_partial",
    "PyX.Style.Surface.agrees_square",
    "PyX.Style.Surface.triangles_wrong",
    "PyX.Style.Surface.back_parallel",
    "PyX.Style.Surface.back_central"
   ],
   "note": "Cells are in the right order for parallel projections; for central projections only if the eye is not above the graph in a grid coordinate (surface_wrong is a counterexample otherwise). Triangles of a cell are ordered by comparing the graph, not the cell: right if both agree (agrees_square), wrong otherwise (triangles_wrong)."
  },
  {
   "property": "C114",
   "status": "partial",
   "theorems": [
    "PyX.Axis.Paint.painted",
    "PyX.Axis.Paint.axis_extent_partial",
    "PyX.Axis.Paint.title_spec",
    "PyX.Axis.Paint.title_direction",
    "PyX.Axis.Paint.bar_extent_partial",
    "PyX.Axis.Paint.barTicks_spec",
    "PyX.Axis.Paint.breaklines_spec",
    "PyX.Axis.Paint.graph_straight",
    "PyX.Axis.Paint.label_off",
    "PyX.Axis.Paint.extent_wrong",
    "PyX.Axis.Paint.bar_names"
   ],
   "note": "What is drawn is proved for all painters without further restriction. The extent claim fails for equalized labels of different depth (extent_wrong); axis_extent_partial and bar_extent_partial assume that labels are not equalized or one of them has all the height and depth. A label whose attributes select nothing raises AttributeError (label_off)."
  },
  {
   "property": "C115",
   "status": "partial",
   "theorems": [
    "PyX.Util.Cfg.call_spec",
    "PyX.Util.Cfg.good_desc",
    "PyX.Util.Cfg.copy",
    "PyX.Util.Cfg.copy_texDefault_partial",
    "PyX.Util.Cfg.copy_keeps",
    "PyX.Util.Cfg.copy_changes",
    "PyX.Util.Cfg.call_lawful",
    "PyX.Util.Cfg.copy_raises",
    "PyX.Util.Cfg.log_raises",
    "PyX.Util.Cfg.bar_forgets",
    "PyX.Util.Cfg.painter_raises",
    "PyX.Util.Cfg.exponenttexter_ignored",
    "PyX.Util.Cfg.minnegexponent_kept",
    "PyX.Util.Cfg.pattern_call"
   ],
   "note": "Proved for all classes whose __call__ satisfies the law; the other classes are findings with the negation proved."
  },
  {
   "property": "C116",
   "status": "partial",
   "theorems": [
    "PyX.Axis.Create.create_agrees_partial",
    "PyX.Axis.Create.create_within",
    "PyX.Axis.Create.create_ends",
    "PyX.Axis.Create.manual_twice",
    "PyX.Axis.Create.manual_shared",
    "PyX.Axis.Create.divisor_rounded",
    "PyX.Axis.Create.create_best",
    "PyX.Axis.fixed_end_moved"
   ],
   "note": "Proved unless tick objects are shared between partitions while a divisor is set (manual ticks), or the divisor is rounded; these cases are findings with witnesses."
  },
  {
   "property": "C117",
   "status": "partial",
   "theorems": [
    "PyX.Axis.Anchored.linked_agree_partial",
    "PyX.Axis.Anchored.linked_order",
    "PyX.Axis.Anchored.setup_spec",
    "PyX.Axis.Anchored.setup_raises",
    "PyX.Axis.Anchored.linked_adjust",
    "PyX.Axis.Anchored.xvtickpoint_wrong"
   ],
   "note": "Proved when all columns are given before the first of the linked axes is created; otherwise false, with a witness."
  },
  {
   "property": "C118",
   "status": "partial",
   "theorems": [
    "PyX.NormPath.ByLength.toParam_accurate_partial",
    "PyX.NormPath.ByLength.toParam_mono_partial",
    "PyX.NormPath.ByLength.toParam_begin_partial",
    "PyX.NormPath.ByLength.toParam_end_partial",
    "PyX.NormPath.ByLength.toParam_length",
    "PyX.NormPath.ByLength.toParam_total",
    "PyX.NormPath.ByLength.toParam_false",
    "PyX.NormPath.ByLength.scan_accurate_partial",
    "PyX.NormPath.ByLength.scan_begin_partial",
    "PyX.NormPath.ByLength.scan_end_partial"
   ],
   "note": "accuracy, order and ends unless realpolyroots is asked for one of the cubic polynomials it gets wrong (C62)"
  },
  {
   "property": "C119",
   "status": "partial",
   "theorems": [
    "PyX.NormPath.ByLength.toArclens_accurate_partial",
    "PyX.NormPath.ByLength.toArclens_single",
    "PyX.NormPath.ByLength.toArclens_total",
    "PyX.NormPath.ByLength.toArclens_false"
   ],
   "note": "for parameters in increasing order"
  },
  {
   "property": "C120",
   "status": "partial",
   "theorems": [
    "PyX.Canvas.svg_picture_partial",
    "PyX.Canvas.svg_state_restored",
    "PyX.Canvas.svg_viewBox_contains_partial",
    "PyX.Canvas.svg_stroke_below",
    "PyX.Canvas.svg_ornament_styles",
    "PyX.Canvas.svg_text_opaque",
    "PyX.Canvas.svg_opacity_stale",
    "PyX.Canvas.svg_fillrule_used"
   ],
   "note": "For trees meeting SvgOK; four counterexamples show that the conditions are needed."
  },
  {
   "property": "C121",
   "status": "partial",
   "theorems": [
    "PyX.Deco.outline_loop",
    "PyX.Deco.tip_at_end",
    "PyX.Deco.head_on_path",
    "PyX.Deco.head_within",
    "PyX.Deco.head_straight",
    "PyX.Deco.straight_back",
    "PyX.Deco.stroke_meets_head",
    "PyX.Deco.arrow_back",
    "PyX.Deco.both_ends",
    "PyX.Deco.arrow_call_keeps",
    "PyX.Deco.short_path_stroke",
    "PyX.Deco.arrow_call_fills"
   ],
   "note": "Geometry proved for all tracks and settings; deviations: paths shorter than the head get a stray stroke (short_path_stroke), __call__ re-adds deco.filled after filled.clear (arrow_call_fills)."
  },
  {
   "property": "C122",
   "status": "proved",
   "theorems": [
    "PyX.Deco.text_direction",
    "PyX.Deco.text_beside",
    "PyX.Deco.text_pos",
    "PyX.Deco.curved_items",
    "PyX.Deco.curved_straight",
    "PyX.Deco.curved_excluded",
    "PyX.Deco.hatch_covers",
    "PyX.Deco.hatch_merge"
   ],
   "note": "Text boxes subject to the conditions of C52 (sides not nearly parallel to the direction)."
  },
  {
   "property": "C123",
   "status": "partial",
   "theorems": [
    "PyX.Deform.corner_ends",
    "PyX.Deform.corner_tangents",
    "PyX.Deform.corner_inside",
    "PyX.Deform.corner_curvature",
    "PyX.Deform.corner_stationary",
    "PyX.Deform.corner_not_stationary",
    "PyX.Deform.arm_curvature",
    "PyX.Deform.arm_curvature_end",
    "PyX.Deform.arms_equations",
    "PyX.Deform.pairs_solve",
    "PyX.Deform.pairs_complete",
    "PyX.Deform.first_solution",
    "PyX.Deform.controldists_general",
    "PyX.Deform.endgeometry_partial",
    "PyX.Deform.endgeometry_wrong",
    "PyX.Deform.endgeometry_assertion",
    "PyX.Deform.endgeometry_line",
    "PyX.Deform.corner_smooth",
    "PyX.Deform.path_smooth",
    "PyX.Deform.polygon_open",
    "PyX.Deform.polygon_closed",
    "PyX.Deform.single_line_cut",
    "PyX.Deform.endgeometry_parallel"
   ],
   "note": "Continuity of the tangents for all polygons and all chains of cuts with crossing tangents; the curvatures at the ends of curved corners hold for exact roots when a pair solves the equations; negations with witnesses for the cases the code gets wrong."
  },
  {
   "property": "C124",
   "status": "partial",
   "theorems": [
    "PyX.Deform.cycloid_spring",
    "PyX.Deform.cycloid_curves",
    "PyX.Deform.cycloid_touches",
    "PyX.Deform.cycloid_within",
    "PyX.Deform.cycloid_odd_ends",
    "PyX.Deform.cycloid_even_ends",
    "PyX.Deform.cycloid_end_missing",
    "PyX.Deform.cycloid_short",
    "PyX.Deform.cycloid_ninety",
    "PyX.Deform.cycloid_near_ninety",
    "PyX.Deform.cycloid_sign_partial",
    "PyX.Deform.cycloid_sign_wrong"
   ],
   "note": "Shape, smoothness, range and odd ends proved for all parameters; even numbers of half loops, turnangle 90 and sign -1 on curved paths proved to be wrong."
  },
  {
   "property": "C125",
   "status": "partial",
   "theorems": [
    "PyX.Deform.linesmoothed_through",
    "PyX.Deform.linesmoothed_smooth",
    "PyX.Deform.linesmoothed_closed",
    "PyX.Deform.linesmoothed_ends",
    "PyX.Deform.linesmoothed_atleast"
   ],
   "note": "Everything except atleast, which has no effect; proved whenever the MetaPost path can be computed and the corners are farther apart than epsilon."
  },
  {
   "property": "C126",
   "status": "partial",
   "theorems": [
    "PyX.Deform.Par.parallel_line",
    "PyX.Deform.Par.between_spec",
    "PyX.Deform.Par.polyline_spec",
    "PyX.Deform.Par.polyline_distance",
    "PyX.Deform.Par.convex_outward",
    "PyX.Deform.Par.corner_nearest",
    "PyX.Deform.Par.around_sharp",
    "PyX.Deform.Par.sharp_turn_back",
    "PyX.Deform.Par.turn_back_fails",
    "PyX.Deform.Par.tiny_distance",
    "PyX.Deform.Par.tri_outward"
   ],
   "note": "sharp outer corners fail where the path turns back (negation proved); everything else is proved"
  },
  {
   "property": "C127",
   "status": "partial",
   "theorems": [
    "PyX.Deform.Par.nice_follows",
    "PyX.Deform.Par.Follows.leads",
    "PyX.Deform.Par.Follows.segment",
    "PyX.Deform.Par.curve_parallel",
    "PyX.Deform.Par.pieces_kept",
    "PyX.Deform.Par.pieces_spec",
    "PyX.Deform.Par.parallel_velocity",
    "PyX.Deform.Par.parallel_curvature",
    "PyX.Deform.Par.crossings_sound",
    "PyX.Deform.Par.crossings_found",
    "PyX.Deform.Par.crossings_ends",
    "PyX.Deform.Par.crossings_end",
    "PyX.Deform.Par.interpolation_mirrored",
    "PyX.Deform.Par.two_endless",
    "PyX.Deform.Par.single_piece_flags",
    "PyX.Deform.Par.end_not_joined",
    "PyX.Deform.Par.lost_parallel",
    "PyX.Deform.Par.exWave_parallel",
    "PyX.Deform.Par.distOk_sound"
   ],
   "note": "Pieces follow the true parallel; crossings sound, complete at the samples and terminating. Some pieces are lost or not joined (proved with witnesses)."
  },
  {
   "property": "C128",
   "status": "partial",
   "theorems": [
    "PyX.Graph.Key.column_spec",
    "PyX.Graph.Key.title_space",
    "PyX.Graph.Key.titles_apart_partial",
    "PyX.Graph.Key.titles_overlap",
    "PyX.Graph.Key.fewer_columns",
    "PyX.Graph.Key.column_gap",
    "PyX.Graph.Key.pos_letters",
    "PyX.Graph.Key.pos_numbers",
    "PyX.Graph.Key.extent_title"
   ],
   "note": "Titles of different depths and heights can overlap (titles_overlap); the distance between titles is proved for equal depths or heights."
  },
  {
   "property": "C129",
   "status": "partial",
   "theorems": [
    "PyX.TexMsg.removeString_spec",
    "PyX.TexMsg.removePattern_nl",
    "PyX.TexMsg.removePattern_plain",
    "PyX.TexMsg.removeNested_spec",
    "PyX.TexMsg.load_partial",
    "PyX.TexMsg.load_unbracketed",
    "PyX.TexMsg.load_loses_text",
    "PyX.TexMsg.broken_before_quote",
    "PyX.TexMsg.accumulated_spec",
    "PyX.TexMsg.parsers_return",
    "PyX.TexMsg.loadDef_sound",
    "PyX.TexMsg.loadDef_complete",
    "PyX.TexMsg.graphics_second_left",
    "PyX.TexMsg.graphics_loses_text",
    "PyX.TexMsg.warnAll_spec",
    "PyX.TexMsg.pattern_endless",
    "PyX.TexMsg.start_spec"
   ],
   "note": "load: messages with quotes or unbalanced brackets are left out (text can get lost, witness); load_graphics violates the claim (witnesses)."
  },
  {
   "property": "C130",
   "status": "partial",
   "theorems": [
    "PyX.TexEngine.text_accepted",
    "PyX.TexEngine.leftover_spec",
    "PyX.TexEngine.float_spec",
    "PyX.TexEngine.error_raised",
    "PyX.TexEngine.marker_apart",
    "PyX.TexEngine.numbered",
    "PyX.TexEngine.preamble_late",
    "PyX.TexEngine.done_stays",
    "PyX.TexEngine.state_mono",
    "PyX.TexEngine.pages_by_count",
    "PyX.TexEngine.own_pages_partial",
    "PyX.TexEngine.failed_end",
    "PyX.TexEngine.ipc_own",
    "PyX.TexEngine.ipc_lost",
    "PyX.TexEngine.failed_text_shifts",
    "PyX.TexEngine.failed_text_ipc",
    "PyX.TexEngine.restart_inputs",
    "PyX.TexEngine.restarts",
    "PyX.TexEngine.refused_preamble",
    "PyX.TexEngine.lost_preambles",
    "PyX.TexEngine.done_accepted"
   ],
   "note": "Each text shows its own page only if no text failed before (own_pages_partial); the shift after a failed text is proved in pages_by_count and failed_text_shifts."
  },
  {
   "property": "C131",
   "status": "partial",
   "theorems": [
    "PyX.T1Text.ligatures_spec",
    "PyX.T1Text.ligatures_done_partial",
    "PyX.T1Text.ligature_left",
    "PyX.T1Text.path_positions",
    "PyX.T1Text.ps_positions",
    "PyX.T1Text.pdf_positions",
    "PyX.T1Text.svg_positions",
    "PyX.T1Text.bbox_end",
    "PyX.T1Text.widths_spec",
    "PyX.T1Text.pdf_error",
    "PyX.T1Text.pdf_drift",
    "PyX.T1Text.slant_same",
    "PyX.T1Text.slant_lost",
    "PyX.T1Text.strings_read",
    "PyX.T1Text.encodings",
    "PyX.T1Text.vector_inverse",
    "PyX.T1Text.svg_characters",
    "PyX.T1Text.svg_shared",
    "PyX.T1Text.create_spec",
    "PyX.T1Text.descent_is_top",
    "PyX.T1Text.descent_partial"
   ],
   "note": "Positions, encodings and strings are proved for all texts. Negations with witnesses: ligature_left, pdf_drift, slant_lost, descent_is_top, svg_shared."
  },
  {
   "property": "C132",
   "status": "partial",
   "theorems": [
    "PyX.TextAttr.shifts_lower",
    "PyX.TextAttr.valign_box",
    "PyX.TextAttr.halign_last",
    "PyX.TextAttr.corner_anchor",
    "PyX.TextAttr.halign_default",
    "PyX.TextAttr.texts_independent",
    "PyX.TextAttr.parbox_width",
    "PyX.TextAttr.parbox_real",
    "PyX.TextAttr.parbox_baseline",
    "PyX.TextAttr.invalid_baseline",
    "PyX.TextAttr.content_env",
    "PyX.TextAttr.flush_drops_box",
    "PyX.TextAttr.last_size_lost",
    "PyX.TextAttr.size_index",
    "PyX.TextAttr.escape_spec",
    "PyX.TextAttr.escape_injective"
   ],
   "note": "invalid base lines lose the text; flushhalign after halign drops the box alignment; the last size does not always win"
  },
  {
   "property": "C133",
   "status": "partial",
   "theorems": [
    "PyX.UniText.stack_spec",
    "PyX.UniText.pieces_follow",
    "PyX.UniText.text_advance",
    "PyX.UniText.text_content",
    "PyX.UniText.attrs_refused",
    "PyX.UniText.minus_centred"
   ],
   "note": "the engine refuses all text attributes, including mathmode"
  },
  {
   "property": "C134",
   "status": "partial",
   "theorems": [
    "PyX.Points.inside_iff",
    "PyX.Points.symbols_spec",
    "PyX.Points.symbol_centred",
    "PyX.Points.polygon_area",
    "PyX.Points.lines_length",
    "PyX.Points.circle_area",
    "PyX.Points.impulse_spec",
    "PyX.Points.impulse_part",
    "PyX.Points.impulse_lost",
    "PyX.Points.text_spec",
    "PyX.Points.rect_partial",
    "PyX.Points.rect_overhang",
    "PyX.Points.rect_reversed",
    "PyX.Points.rect_colorname",
    "PyX.Points.colour_param",
    "PyX.Points.key_pixels",
    "PyX.Points.key_colour_partial",
    "PyX.Points.key_end",
    "PyX.Points.arrow_spec",
    "PyX.Points.arrow_drawn"
   ],
   "note": "impulses of points outside are lost; rectangles exceeding the graph on both sides or on reversed axes are wrong; the key is off by one step"
  },
  {
   "property": "C135",
   "status": "partial",
   "theorems": [
    "PyX.Afm.glyph_line",
    "PyX.Afm.glyph_roundtrip",
    "PyX.Afm.chars_spec",
    "PyX.Afm.pair_line",
    "PyX.Afm.pairs_spec",
    "PyX.Afm.header_spec",
    "PyX.Afm.file_spec",
    "PyX.Afm.tracks_spec",
    "PyX.Afm.direction_spec",
    "PyX.Afm.metricssets_fails",
    "PyX.Afm.comment_ends_direction",
    "PyX.Afm.direction_two",
    "PyX.Afm.comment_in_chars",
    "PyX.Afm.truncated",
    "PyX.Afm.composites_lost",
    "PyX.Afm.codes_not_names",
    "PyX.Afm.parseHex_iff",
    "PyX.Afm.pair_second",
    "PyX.Afm.pairs_second",
    "PyX.Afm.section_second",
    "PyX.Afm.section_second_twice"
   ],
   "note": "One direction, tracks and fields of the second direction are proved; MetricsSets, comments in some places and composites are refuted."
  },
  {
   "property": "C136",
   "status": "partial",
   "theorems": [
    "PyX.Pfm.read_iff",
    "PyX.Pfm.read_spec",
    "PyX.Pfm.width_spec",
    "PyX.Pfm.width_before_first",
    "PyX.Pfm.width_after_last",
    "PyX.Pfm.ansi_code",
    "PyX.Pfm.ansi_space",
    "PyX.Pfm.space_lost",
    "PyX.Pfm.encoding_code",
    "PyX.Pfm.kern_spec",
    "PyX.Pfm.kernings_spec",
    "PyX.Pfm.text_width",
    "PyX.Pfm.flags_spec",
    "PyX.Pfm.info_spec"
   ],
   "note": "Spaces, hyphens and bullets of ANSI fonts have other codes, and glyphs before the first character have wrong widths: both refuted; the rest is proved."
  },
  {
   "property": "C137",
   "status": "partial",
   "theorems": [
    "PyX.Encoding.gettoken_iff",
    "PyX.Encoding.encfile_iff",
    "PyX.Encoding.wrong_length",
    "PyX.Encoding.no_newline",
    "PyX.Encoding.bracket_def",
    "PyX.Encoding.encoding_iff",
    "PyX.Encoding.standard_iff",
    "PyX.Encoding.strip_spec",
    "PyX.Encoding.unify_read",
    "PyX.Encoding.unify_encoding",
    "PyX.Encoding.strip_unify",
    "PyX.Encoding.uid_spec",
    "PyX.Encoding.uid_comment",
    "PyX.Encoding.radix_fails",
    "PyX.Encoding.strip_none",
    "PyX.Encoding.isStart_iff",
    "PyX.Encoding.int_sign",
    "PyX.Encoding.uid_removed",
    "PyX.Encoding.encoding_moved",
    "PyX.Encoding.written_encoding",
    "PyX.Encoding.written_encoding_plain"
   ],
   "note": "The three readers are characterised by iff theorems, and the text of stripped fonts is followed from reading to writing (written_encoding). Partial: some valid PostScript layouts are refused, and removing UniqueID from a comment may remove a line (theorems)."
  },
  {
   "property": "C138",
   "status": "proved",
   "theorems": [
    "PyX.Monitor.never_fails",
    "PyX.Monitor.all_lines",
    "PyX.Monitor.read_marker",
    "PyX.Monitor.read_all",
    "PyX.Monitor.no_deadlock",
    "PyX.Monitor.no_infinite",
    "PyX.Monitor.maximal",
    "PyX.Monitor.read_all_timeout",
    "PyX.Monitor.waiting_spec",
    "PyX.Monitor.waiting_true",
    "PyX.Monitor.stale_marker",
    "PyX.Monitor.full_after_timeout",
    "PyX.Monitor.thread_needed",
    "PyX.Monitor.wait_zero"
   ],
   "note": "All interleavings of the main thread, the reading thread and TeX with bounded pipes; lines are abstract."
  },
  {
   "property": "C139",
   "status": "partial",
   "theorems": [
    "PyX.NormPath.Cross.flat_close",
    "PyX.NormPath.Cross.cross_sound_partial",
    "PyX.NormPath.Cross.cross_complete_partial",
    "PyX.NormPath.Cross.cross_nonempty_partial",
    "PyX.NormPath.Cross.sides_found_partial",
    "PyX.NormPath.Cross.settles",
    "PyX.NormPath.Cross.cross_total",
    "PyX.NormPath.Cross.cross_mono",
    "PyX.NormPath.Cross.point_endless",
    "PyX.NormPath.Cross.touching_missed"
   ],
   "note": "Soundness and completeness assume that the misprint of C43 and the double roots of C62 do not matter; completeness is with respect to the replacing lines, touching points can be missed."
  },
  {
   "property": "C140",
   "status": "partial",
   "theorems": [
    "PyX.NormPath.SubCross.intersect_sound",
    "PyX.NormPath.SubCross.intersect_complete_partial",
    "PyX.NormPath.SubCross.lonely_found",
    "PyX.NormPath.SubCross.intersect_nodup_partial",
    "PyX.NormPath.SubCross.intersect_total_partial",
    "PyX.NormPath.SubCross.vertex_once",
    "PyX.NormPath.SubCross.kept_iff",
    "PyX.NormPath.SubCross.closepoints_near",
    "PyX.NormPath.SubCross.one_per_cluster_partial",
    "PyX.NormPath.SubCross.chain_double",
    "PyX.NormPath.SubCross.mem_pathIntersect",
    "PyX.NormPath.SubCross.complete_first",
    "PyX.NormPath.SubCross.complete_second",
    "PyX.NormPath.SubCross.lonely_found_first",
    "PyX.NormPath.SubCross.lonely_found_second"
   ],
   "note": "Soundness for all sub-paths; completeness if one of the sub-paths is open; duplicates and exceptions for open ones. Merging of close intersections is not transitive (chain_double)."
  },
  {
   "property": "C141",
   "status": "proved",
   "theorems": [
    "PyX.Svg.Shape.rounded_loop",
    "PyX.Svg.Shape.rounded_outline",
    "PyX.Svg.Shape.plain_edge",
    "PyX.Svg.Shape.rect_rounded",
    "PyX.Svg.Shape.rect_plain",
    "PyX.Svg.Shape.rect_zero_radius",
    "PyX.Svg.Shape.rect_tiny",
    "PyX.Svg.Shape.poly_spec",
    "PyX.Svg.Shape.polygon_loop"
   ],
   "note": "For the exact circle. Radii which are all below 1e-10 are drawn as none, which is right up to 1e-10 (rect_tiny)."
  },
  {
   "property": "C142",
   "status": "partial",
   "theorems": [
    "PyX.Svg.Paint.keyword_color",
    "PyX.Svg.Paint.rgb_color",
    "PyX.Svg.Paint.percent_color",
    "PyX.Svg.Paint.hex_color",
    "PyX.Svg.Paint.short_color",
    "PyX.Svg.Paint.inherit_color",
    "PyX.Svg.Paint.length_text",
    "PyX.Svg.Paint.styles_mem",
    "PyX.Svg.Paint.unknown_cap",
    "PyX.Svg.Paint.dash_first",
    "PyX.Svg.Paint.dash_again",
    "PyX.Svg.Paint.dash_lost",
    "PyX.Svg.Paint.dash_none",
    "PyX.Svg.Paint.miter_scaled",
    "PyX.Svg.Paint.currentColor_lost",
    "PyX.Svg.Paint.refused_colors",
    "PyX.Svg.Paint.inherit_cap",
    "PyX.Svg.Paint.readPart_sound",
    "PyX.Svg.Paint.readRgb_sound"
   ],
   "note": "Violated for dash patterns written twice, miter limits, currentColor and clipped values; proved otherwise."
  },
  {
   "property": "C143",
   "status": "partial",
   "theorems": [
    "PyX.Pattern.hatched_strips",
    "PyX.Pattern.crosshatched_grid",
    "PyX.Pattern.cells",
    "PyX.Pattern.ps_pdf",
    "PyX.Pattern.ps_pdf_differ",
    "PyX.Pattern.zero_step",
    "PyX.Pattern.svg_shift",
    "PyX.Pattern.svg_same",
    "PyX.Pattern.svg_differs",
    "PyX.Pattern.svg_hatched",
    "PyX.Pattern.sizes_ratio",
    "PyX.Pattern.hatch_call",
    "PyX.Pattern.call_useless",
    "PyX.Pattern.call_fails"
   ],
   "note": "Violated for calls of patterns, given boxes in PDF and SVG; proved otherwise."
  },
  {
   "property": "C144",
   "status": "partial",
   "theorems": [
    "PyX.Form.flag_bits",
    "PyX.Form.select_some",
    "PyX.Form.select_value",
    "PyX.Form.field_place",
    "PyX.Form.button_place",
    "PyX.Form.button_mirrored",
    "PyX.Form.string_read_partial",
    "PyX.Form.string_wrong",
    "PyX.Form.buttons_spec",
    "PyX.Form.buttons_wrong",
    "PyX.Form.button_off",
    "PyX.Form.texts_lines",
    "PyX.Form.texts_fail",
    "PyX.Form.texts_wrong",
    "PyX.Form.centred",
    "PyX.Form.field_fails",
    "PyX.Form.styles_leak",
    "PyX.Form.field_plain"
   ],
   "note": "names with single parentheses or backslashes, mirrored canvases, and text fields after fill styles go wrong in the code; witnesses are proved"
  },
  {
   "property": "C145",
   "status": "proved",
   "theorems": [
    "PyX.Output.write_goes",
    "PyX.Output.write_nowhere",
    "PyX.Output.goes_unique",
    "PyX.Output.script_kept",
    "PyX.Output.old_content_lost",
    "PyX.Output.one_suffix",
    "PyX.Output.writetofile_format",
    "PyX.Output.writetofile_other",
    "PyX.Output.wrap_write",
    "PyX.Output.wrap_page",
    "PyX.Output.wrap_both",
    "PyX.Output.gs_spec",
    "PyX.Output.paper_any_case",
    "PyX.Output.papers_halve",
    "PyX.Output.iso_formats"
   ],
   "note": "opening of files is assumed to succeed"
  },
  {
   "property": "C146",
   "status": "partial",
   "theorems": [
    "PyX.Axis.Along.tick_point",
    "PyX.Axis.Along.tick_direction",
    "PyX.Axis.Along.param_mono",
    "PyX.Axis.Along.base_open",
    "PyX.Axis.Along.base_closed",
    "PyX.Axis.Along.base_closed_exists",
    "PyX.Axis.Along.base_closed_wrong",
    "PyX.Axis.Along.methods_agree",
    "PyX.Axis.Along.shortcuts_right",
    "PyX.Axis.Along.vtickpoint_wrong"
   ],
   "note": "paths of lines; closed paths with one end given and the methods vtickpoint are wrong (negations proved)"
  },
  {
   "property": "C147",
   "status": "proved",
   "theorems": [
    "PyX.Style.ChangeBar.changebar_fills",
    "PyX.Style.ChangeBar.changebar_cyclic",
    "PyX.Style.ChangeBar.changebar_refused",
    "PyX.Style.ChangeBar.same_shapes",
    "PyX.Style.ChangeBar.visible_iff",
    "PyX.Style.ChangeBar.short_list_fails"
   ],
   "note": "two-dimensional bars; too short lists which are not cyclic raise an exception (finding)"
  },
  {
   "property": "C148",
   "status": "proved",
   "theorems": [
    "PyX.Svg.Write.file_wellformed",
    "PyX.Svg.Write.write_iff",
    "PyX.Svg.Write.prefixes_declared",
    "PyX.Svg.Write.escape_data",
    "PyX.Svg.Write.quoteattr_value",
    "PyX.Svg.Write.emit_block",
    "PyX.Svg.Write.emit_inline",
    "PyX.Svg.Write.image_in_pattern_fails"
   ],
   "note": "everything the generator is called with by PyX itself; a bitmap in a pattern may fail (finding)"
  },
  {
   "property": "C149",
   "status": "partial",
   "theorems": [
    "PyX.PSFile.ps_sections",
    "PyX.PSFile.ps_pages",
    "PyX.PSFile.ps_count",
    "PyX.PSFile.ps_bbox",
    "PyX.PSFile.papers_spec",
    "PyX.PSFile.embed_body",
    "PyX.PSFile.definition_body",
    "PyX.PSFile.font_body",
    "PyX.PSFile.eps_sections",
    "PyX.PSFile.eps_one_page",
    "PyX.PSFile.own_eps",
    "PyX.PSFile.eps_roundtrip",
    "PyX.PSFile.registry_spec",
    "PyX.PSFile.needs_before",
    "PyX.PSFile.fonts_before",
    "PyX.PSFile.fonts_complete",
    "PyX.PSFile.embed_unended_fails",
    "PyX.PSFile.title_fails",
    "PyX.PSFile.empty_eps_fails",
    "PyX.PSFile.options_partial",
    "PyX.PSFile.old_options_fail",
    "PyX.PSFile.mesh_bitmap_fails",
    "PyX.PSFile.font_file_before",
    "PyX.PSFile.trunc_spec"
   ],
   "note": "Proved for titles and names without line ends and included files with a final line end; otherwise, and for old option names and meshes as bitmaps, refuted with witnesses."
  },
  {
   "property": "C150",
   "status": "partial",
   "theorems": [
    "PyX.Axis.Time.convert_spec",
    "PyX.Axis.Time.convert_ends",
    "PyX.Axis.Time.convert_distance",
    "PyX.Axis.Time.adjust_spec",
    "PyX.Axis.Time.merge_spec",
    "PyX.Axis.Time.labels_spec",
    "PyX.Axis.Time.reverse_ignored",
    "PyX.Axis.Time.direction_recorded"
   ],
   "note": "Everything is proved except the direction, which the code ignores (violation proved)."
  },
  {
   "property": "C151",
   "status": "partial",
   "theorems": [
    "PyX.Graph.Cbd.read_partial",
    "PyX.Graph.Cbd.shown_spec",
    "PyX.Graph.Cbd.key_inj",
    "PyX.Graph.Cbd.points_read",
    "PyX.Graph.Cbd.lines_fail"
   ],
   "note": "In Python 3 reading fails for every file with a line (violation proved); the decoding is proved right for Python 2."
  },
  {
   "property": "C152",
   "status": "partial",
   "theorems": [
    "PyX.Pdf.File.pdf_pages",
    "PyX.Pdf.File.pdf_resources",
    "PyX.Pdf.File.pdf_objects",
    "PyX.Pdf.File.pdf_written",
    "PyX.Pdf.File.empty_page_fails",
    "PyX.Pdf.File.compresslevel_ignored",
    "PyX.Pdf.WriterOptions.writer_options_partial",
    "PyX.Pdf.WriterOptions.writer_options_fail"
   ],
   "note": "Reading of the file is proved; violations: empty pages without paper format, the ignored compression level and old option names."
  },
  {
   "property": "C153",
   "status": "partial",
   "theorems": [
    "PyX.Deco.Brace.brace_halves",
    "PyX.Deco.Brace.brace_closed",
    "PyX.Deco.Brace.brace_drawn",
    "PyX.Deco.Brace.brace_ends_partial",
    "PyX.Deco.Brace.brace_bar_doubled",
    "PyX.Deco.Brace.brace_bars",
    "PyX.Deco.Brace.brace_cap",
    "PyX.Deco.Brace.brace_dist_reversed",
    "PyX.Deco.Brace.ex_brace",
    "PyX.Deco.Brace.ex_slanted"
   ],
   "note": "Shape and place are proved; violations: double bar thickness, short braces, slanted caps, reversed braces with a distance."
  },
  {
   "property": "C154",
   "status": "partial",
   "theorems": [
    "PyX.Dvi.Special.special_groups",
    "PyX.Dvi.Special.special_markers",
    "PyX.Dvi.Special.special_marker",
    "PyX.Dvi.Special.special_accepted",
    "PyX.Dvi.Special.end_without_begin",
    "PyX.Dvi.Special.marker_twice",
    "PyX.Dvi.Special.special_colors",
    "PyX.Dvi.Special.special_trafos",
    "PyX.Dvi.Special.special_unknown",
    "PyX.Dvi.Special.pyxcolor_numbers",
    "PyX.Dvi.Special.special_eps",
    "PyX.Dvi.Special.unclosed_group_lost",
    "PyX.Dvi.Special.marker_twice_accepted",
    "PyX.Dvi.Special.pyxcolor_exponents_lost",
    "PyX.Dvi.Special.pyxcolor_exponent",
    "PyX.Dvi.Special.eps_name_refused",
    "PyX.Dvi.Special.ex_page"
   ],
   "note": "Proved for pages whose groups are closed and names of markers which differ; violated for pages with open groups, names of markers repeated in groups, exponents in pyxcolor and file names with blanks or equals signs."
  },
  {
   "property": "C155",
   "status": "partial",
   "theorems": [
    "PyX.Tfm.tfm_read",
    "PyX.Tfm.tfm_dims",
    "PyX.Tfm.tfm_truncated",
    "PyX.Tfm.face_name",
    "PyX.Tfm.font_accepted",
    "PyX.Tfm.font_refused",
    "PyX.Tfm.tfm_prints",
    "PyX.Tfm.tfm_header_refused",
    "PyX.Tfm.checksum_ignored",
    "PyX.Tfm.ex_font",
    "PyX.Tfm.Text.text_box",
    "PyX.Tfm.Text.text_box_exists"
   ],
   "note": "Reading, dimensions, truncation and boxes are proved; violated: long headers are printed, some lengths of headers are refused, check sums with the first bit set are not compared."
  },
  {
   "property": "C156",
   "status": "partial",
   "theorems": [
    "PyX.NormPath.Positions.arclentoparam_list",
    "PyX.NormPath.Positions.positions_list",
    "PyX.NormPath.Positions.positions_value",
    "PyX.NormPath.Positions.positions_units",
    "PyX.NormPath.Positions.positions_foreign",
    "PyX.NormPath.Positions.paramtoarclen_list",
    "PyX.NormPath.Positions.ex_positions",
    "PyX.NormPath.Positions.path_rotation_pt_wrong",
    "PyX.NormPath.Positions.path_rotation_pt_partial",
    "PyX.NormPath.Positions.arclentoparam_iter",
    "PyX.NormPath.Positions.positions_tuple",
    "PyX.NormPath.Positions.paramtoarclen_empty"
   ],
   "note": "Proved for lists and single values; violated: path.rotation_pt and path.trafo_pt use the wrong unit, iterators lose their first item, tuples of lengths and empty lists of parameters are refused in places."
  },
  {
   "property": "C157",
   "status": "partial",
   "theorems": [
    "PyX.Dvi.File.dvi_pages",
    "PyX.Dvi.File.dvi_page_number",
    "PyX.Dvi.File.dvi_units",
    "PyX.Dvi.File.dvi_fontdef_refused",
    "PyX.Dvi.File.ex_file",
    "PyX.Dvi.File.ex_units",
    "PyX.Dvi.File.dvi_version",
    "PyX.Dvi.File.dvi_more_pages",
    "PyX.Dvi.File.dvi_less_pages"
   ],
   "note": "Font definitions between pages, which are legal, are refused (dvi_fontdef_refused); proved for files with only no-operations between the pages."
  },
  {
   "property": "C158",
   "status": "partial",
   "theorems": [
    "PyX.Deco.Gradient.gradient_visible",
    "PyX.Deco.Gradient.gradient_strokes",
    "PyX.Deco.Gradient.gradient_works",
    "PyX.Deco.Gradient.gradient_closed",
    "PyX.Deco.Gradient.gradient_single",
    "PyX.Deco.Gradient.ex_gradient",
    "PyX.Deco.Gradient.split_open",
    "PyX.Deco.Gradient.gradient_strokes_subs",
    "PyX.Deco.Gradient.gradient_visible_subs",
    "PyX.Deco.Gradient.along_covers",
    "PyX.Deco.Gradient.gradient_works_subs",
    "PyX.Deco.Gradient.ex_gradient_subs"
   ],
   "note": "Proved for paths whose sub-paths are all open and at least two steps. Closed paths and a single step raise an IndexError (gradient_closed, gradient_single), so the claim fails for them."
  },
  {
   "property": "C159",
   "status": "proved",
   "theorems": [
    "PyX.Path.NormOutput.normpath_ps",
    "PyX.Path.NormOutput.normpath_pdf",
    "PyX.Path.NormOutput.normpath_svg",
    "PyX.Path.NormOutput.normpath_path",
    "PyX.Path.NormOutput.ex_wellformed"
   ],
   "note": "For connected sub-paths (what the constructors of normpaths build up to epsilon)."
  },
  {
   "property": "C160",
   "status": "partial",
   "theorems": [
    "PyX.Bitmap.Colors.pdf_colors_partial",
    "PyX.Bitmap.Colors.ps_colors_partial",
    "PyX.Bitmap.Colors.gray_palette_wrong",
    "PyX.Bitmap.Colors.cmyk_palette_wrong",
    "PyX.Bitmap.Colors.ps_hex_fails",
    "PyX.Bitmap.Colors.ex_pixels",
    "PyX.Bitmap.Colors.ex_undoes"
   ],
   "note": "Holds for images without palette and RGB palettes; violated for gray and CMYK palettes and hexadecimal data in PostScript."
  },
  {
   "property": "C161",
   "status": "partial",
   "theorems": [
    "PyX.Deform.Rebuild.trial_ends",
    "PyX.Deform.Rebuild.trial_outline",
    "PyX.Deform.Rebuild.trial_complete",
    "PyX.Deform.Rebuild.rebuild_outlines",
    "PyX.Deform.Rebuild.piece_sub",
    "PyX.Deform.Rebuild.piece_sub_fails",
    "PyX.Deform.Rebuild.key_error",
    "PyX.Deform.Rebuild.ex_eight",
    "PyX.Deform.Rebuild.ex_consistent"
   ],
   "note": "Termination, soundness, completeness and single use hold for all networks; that pieces stay on one sub-path holds only if all ends are listed."
  },
  {
   "property": "C162",
   "status": "partial",
   "theorems": [
    "PyX.Deform.Continue.order_crossing",
    "PyX.Deform.Continue.order_contact",
    "PyX.Deform.Continue.order_back_fails",
    "PyX.Deform.Continue.betweenLine_iff",
    "PyX.Deform.Continue.betweenCorner_iff",
    "PyX.Deform.Continue.curve_never",
    "PyX.Deform.Continue.enter_spec",
    "PyX.Deform.Continue.enterAll_spec",
    "PyX.Deform.Continue.ex_order",
    "PyX.Deform.Continue.ex_between",
    "PyX.Deform.Continue.ex_enter"
   ],
   "note": "Holds for crossings, contacts in the same direction, lines and corners; violated for contacts in opposite directions and curves."
  },
  {
   "property": "C163",
   "status": "partial",
   "theorems": [
    "PyX.Pdf.Strings.written_iff_safe",
    "PyX.Pdf.Strings.entries_read",
    "PyX.Pdf.Strings.text_read",
    "PyX.Pdf.Strings.choice_read",
    "PyX.Pdf.Strings.options_read",
    "PyX.Pdf.Strings.shows_read",
    "PyX.Pdf.Strings.options_fail",
    "PyX.Pdf.Strings.name_fails",
    "PyX.Pdf.Strings.ex_safe",
    "PyX.Pdf.Strings.ex_read"
   ],
   "note": "Equivalence: exactly the strings with balanced parentheses and without backslashes and carriage returns are read as given."
  },
  {
   "property": "C164",
   "status": "partial",
   "theorems": [
    "PyX.Text.Boxes.text_follows",
    "PyX.Text.Boxes.tex_start",
    "PyX.Text.Boxes.box_follows",
    "PyX.Text.Boxes.anchor_is_origin",
    "PyX.Text.Boxes.rel_keeps_anchor",
    "PyX.Text.Boxes.drawn_follows",
    "PyX.Text.Boxes.marker_follows",
    "PyX.Text.Boxes.reading_time",
    "PyX.Text.Boxes.textpath_drawn_partial",
    "PyX.Text.Boxes.textpath_fails",
    "PyX.Text.Boxes.unicode_textpath",
    "PyX.Text.Boxes.unicode_box",
    "PyX.Text.Boxes.unicode_anchor",
    "PyX.Text.Boxes.bbox_contains"
   ],
   "note": "Violated: outlines of texts with rules or groups raise AttributeError; the anchor of Unicode texts is the corner of the box. Everything else is proved for all sequences of operations."
  },
  {
   "property": "C165",
   "status": "partial",
   "theorems": [
    "PyX.Mesh.Output.check_iff",
    "PyX.Mesh.Output.ps_shown_partial",
    "PyX.Mesh.Output.pdf_shown_partial",
    "PyX.Mesh.Output.flat_fails",
    "PyX.Mesh.Output.empty_fails",
    "PyX.Mesh.Output.hsb_refused"
   ],
   "note": "Proved for meshes with width and height; flat and empty meshes raise on output (theorems)."
  },
  {
   "property": "C166",
   "status": "proved",
   "theorems": [
    "PyX.Canvas.Draw.draw_ok",
    "PyX.Canvas.Draw.draw_error",
    "PyX.Canvas.Draw.stroke_default",
    "PyX.Canvas.Draw.fill_default",
    "PyX.Canvas.Draw.stroke_last",
    "PyX.Canvas.Draw.hatch_replaces"
   ],
   "note": "holds for all attribute lists"
  },
  {
   "property": "C167",
   "status": "partial",
   "theorems": [
    "PyX.Canvas.Draw.arrow_params",
    "PyX.Canvas.Draw.arrow_keeps_partial",
    "PyX.Canvas.Draw.arrow_refilled",
    "PyX.Canvas.Draw.hatch_keeps_partial",
    "PyX.Canvas.Draw.hatch_thin",
    "PyX.Canvas.Draw.smoothed_keeps",
    "PyX.Canvas.Draw.again_stroke",
    "PyX.Canvas.Draw.again_fill",
    "PyX.Canvas.Draw.again_style"
   ],
   "note": "attributes which clear a default are lost in copies"
  },
  {
   "property": "C168",
   "status": "partial",
   "theorems": [
    "PyX.Deform.Param.make_ok",
    "PyX.Deform.Param.known",
    "PyX.Deform.Param.at_item",
    "PyX.Deform.Param.at_inside",
    "PyX.Deform.Param.at_end",
    "PyX.Deform.Param.trichotomy",
    "PyX.Deform.Param.lt_trans'",
    "PyX.Deform.Param.order_partial",
    "PyX.Deform.Param.order_end",
    "PyX.Deform.Param.smaller_sound",
    "PyX.Deform.Param.larger_sound",
    "PyX.Deform.Param.between",
    "PyX.Deform.Param.long_item",
    "PyX.Deform.Param.pairs_mem",
    "PyX.Deform.Param.pairs_nodup",
    "PyX.Deform.Param.pairs_once",
    "PyX.Deform.Param.origPairs_mem"
   ],
   "note": "The order along the sub-path fails just before the end of an item (order_end), and the joint of items longer than 1e8 epsilon is not recognised (long_item)."
  },
  {
   "property": "C169",
   "status": "partial",
   "theorems": [
    "PyX.Text.UseFiles.ext_dot",
    "PyX.Text.UseFiles.seen_partial",
    "PyX.Text.UseFiles.seen_device",
    "PyX.Text.UseFiles.others",
    "PyX.Text.UseFiles.saved_partial",
    "PyX.Text.UseFiles.kept_partial",
    "PyX.Text.UseFiles.next_run",
    "PyX.Text.UseFiles.lost_device",
    "PyX.Text.UseFiles.lost_path",
    "PyX.Text.UseFiles.lost_extension"
   ],
   "note": "Holds for files with different extensions on the file system of the temporary directory; otherwise files are lost (lost_device, lost_path, lost_extension)."
  },
  {
   "property": "C170",
   "status": "partial",
   "theorems": [
    "PyX.NormPath.Objects.iadd_loop",
    "PyX.NormPath.Objects.iadd_self",
    "PyX.NormPath.Objects.item_spec",
    "PyX.NormPath.Objects.join_spec",
    "PyX.NormPath.Objects.step_partial",
    "PyX.NormPath.Objects.run_partial",
    "PyX.NormPath.Objects.results",
    "PyX.NormPath.Objects.joined_spec",
    "PyX.NormPath.Objects.cached_step_partial",
    "PyX.NormPath.Objects.pathNorm_spec",
    "PyX.NormPath.Objects.joined_shared",
    "PyX.NormPath.Objects.split_shared",
    "PyX.NormPath.Objects.cache_changed"
   ],
   "note": "Sub-paths are shared by join with several sub-paths, split and the cached normpath of a path (joined_shared, split_shared, cache_changed); p += p does not end (iadd_self)."
  },
  {
   "property": "C171",
   "status": "partial",
   "theorems": [
    "PyX.Config.Values.last_some",
    "PyX.Config.Values.files_order",
    "PyX.Config.Values.raw_missing",
    "PyX.Config.Values.further_file",
    "PyX.Config.Values.get_partial",
    "PyX.Config.Values.percent_hidden",
    "PyX.Config.Values.default_safe",
    "PyX.Config.Values.getint_spec",
    "PyX.Config.Values.getboolean_spec",
    "PyX.Config.Values.getlist_partial",
    "PyX.Config.Values.getlist_default",
    "PyX.Config.Values.defaults_wrong",
    "PyX.Config.Values.mark_changed"
   ],
   "note": "A value that is no number raises in spite of the default and a wrong % hides the value (defaults_wrong); items with the mark are changed (mark_changed), list round trip for items without its first character."
  },
  {
   "property": "C172",
   "status": "partial",
   "theorems": [
    "PyX.T1.Embed.embed",
    "PyX.T1.Embed.skipped_iff",
    "PyX.T1.Embed.pfa_unreadable",
    "PyX.T1.Embed.info_complete",
    "PyX.T1.Embed.info_missing",
    "PyX.T1.Embed.info_raises",
    "PyX.T1.Embed.info_partial",
    "PyX.T1.Embed.bbox_cuts",
    "PyX.T1.Embed.italic"
   ],
   "note": "Fonts in PFA form cannot be read (pfa_unreadable), glyphs without outline raise (info_raises), numbers are rounded towards zero (bbox_cuts)."
  },
  {
   "property": "C173",
   "status": "partial",
   "theorems": [
    "PyX.Canvas.Ghostscript.gscmd_output",
    "PyX.Canvas.Ghostscript.gscmd_alpha",
    "PyX.Canvas.Ghostscript.gscmd_options",
    "PyX.Canvas.Ghostscript.device_guess",
    "PyX.Canvas.Ghostscript.name_guess",
    "PyX.Canvas.Ghostscript.name_missing",
    "PyX.Canvas.Ghostscript.write_runs",
    "PyX.Canvas.Ghostscript.pipe_result",
    "PyX.Canvas.Ghostscript.failure_unseen",
    "PyX.Canvas.Ghostscript.never_value",
    "PyX.Canvas.Ghostscript.temp_left",
    "PyX.Canvas.Ghostscript.temp_left_write",
    "PyX.Canvas.Ghostscript.resolution_cut",
    "PyX.Canvas.Ghostscript.ex_gs"
   ],
   "note": "Proved as long as the writers raise nothing. Failures of Ghostscript are not reported, temporary files are left when writing fails, and resolutions are cut to integers (negations proved)."
  },
  {
   "property": "C174",
   "status": "partial",
   "theorems": [
    "PyX.Eps.Calls.call_spec",
    "PyX.Eps.Calls.calls_partial",
    "PyX.Eps.Calls.consecutive",
    "PyX.Eps.Calls.whole",
    "PyX.Eps.Calls.broken_after_rest",
    "PyX.Eps.Calls.line_after_rest_fails"
   ],
   "note": "Holds up to the first successful read(); afterwards the reader raises TypeErrors."
  },
  {
   "property": "C175",
   "status": "partial",
   "theorems": [
    "PyX.MapFile.font_found",
    "PyX.MapFile.one_font",
    "PyX.MapFile.failure_again",
    "PyX.MapFile.bad_afm",
    "PyX.MapFile.wrong_name",
    "PyX.MapFile.pfm_names",
    "PyX.MapFile.pfm_ignored",
    "PyX.MapFile.no_encoding",
    "PyX.MapFile.encoding_iff",
    "PyX.MapFile.no_reencode",
    "PyX.MapFile.one_encoding"
   ],
   "note": "All but the PFM fallback without kpsewhich (refuted by pfm_ignored) and encoding files without ReEncodeFont (no_reencode)."
  },
  {
   "property": "C176",
   "status": "partial",
   "theorems": [
    "PyX.Axis.Layout.unsuitable_iff",
    "PyX.Axis.Layout.touching_iff",
    "PyX.Axis.Layout.rate_value",
    "PyX.Axis.Layout.chosen_labels",
    "PyX.Axis.Layout.few_labels_fail"
   ],
   "note": "All but touching labels, which raise (touching_iff); axes with a single label fail when there are several partitions (few_labels_fail)."
  },
  {
   "property": "C177",
   "status": "partial",
   "theorems": [
    "PyX.Data.Styles.given_titles",
    "PyX.Data.Styles.title_order",
    "PyX.Data.Styles.title_value",
    "PyX.Data.Styles.title_made_iff",
    "PyX.Data.Styles.umlaut_fails",
    "PyX.Data.Styles.join_title_iff",
    "PyX.Data.Styles.join_untitled",
    "PyX.Data.Styles.join_styles",
    "PyX.Data.Styles.plot_given",
    "PyX.Data.Styles.plot_default_iff",
    "PyX.Data.Styles.plot_common",
    "PyX.Data.Styles.join_plot_iff",
    "PyX.Data.Styles.order_of_data"
   ],
   "note": "Refuted for data without default styles in front of others, titles which are not printable ASCII, and joining data without titles."
  },
  {
   "property": "C178",
   "status": "partial",
   "theorems": [
    "PyX.TextDefault.set_engine",
    "PyX.TextDefault.positional_refused",
    "PyX.TextDefault.positional_after",
    "PyX.TextDefault.mode_iff",
    "PyX.TextDefault.cls_same",
    "PyX.TextDefault.set_outcome",
    "PyX.TextDefault.functions_agree",
    "PyX.TextDefault.canvas_engine",
    "PyX.TextDefault.canvas_begin",
    "PyX.TextDefault.axis_engine",
    "PyX.TextDefault.graph_engine_ignored",
    "PyX.TextDefault.key_engine_differs",
    "PyX.TextDefault.link_engine_iff",
    "PyX.TextDefault.link_engine_ignored"
   ],
   "note": "Everything but graphs as stated; positional arguments, engines of graphs for axes and keys, and engines of link painters are refuted."
  },
  {
   "property": "C179",
   "status": "proved",
   "theorems": [
    "PyX.ShowPath.items_shown",
    "PyX.ShowPath.control_shown",
    "PyX.ShowPath.drawEnds_vertices",
    "PyX.ShowPath.vertices_length",
    "PyX.ShowPath.begin_vertex",
    "PyX.ShowPath.ends_last",
    "PyX.ShowPath.nothing_shown"
   ],
   "note": "All parts of the statement."
  },
  {
   "property": "C180",
   "status": "partial",
   "theorems": [
    "PyX.BoxUpdate.ps_pdf_update",
    "PyX.BoxUpdate.svg_update",
    "PyX.BoxUpdate.page_box",
    "PyX.BoxUpdate.ps_pdf_includes",
    "PyX.BoxUpdate.svg_not_includes",
    "PyX.BoxUpdate.svg_includes_partial",
    "PyX.BoxUpdate.svg_pattern_iff",
    "PyX.BoxUpdate.ps_pdf_pattern",
    "PyX.BoxUpdate.bitmap_pattern_fails",
    "PyX.BoxUpdate.page_box_clipped"
   ],
   "note": "Holds for PostScript and PDF and for pages in all formats; refuted for SVG, where bitmaps, meshes and unparsed SVG files do not update the box"
  }
 ]
}