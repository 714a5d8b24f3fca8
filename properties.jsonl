{"id": "C01", "title": "Bounding-box union is the least enclosing box", "statement": "For bounding boxes a and b, a+b (and in-place a+=b) encloses exactly the smallest axis-parallel rectangle containing both; the empty box is neutral; the sum of any collection of boxes does not depend on order or grouping; and a box built by including any sequence of points contains each of them and is contained in every box that does.", "quantifier": "for all boxes (empty or not), all finite sequences of boxes and points", "why_tests_cant": "Canvas and graph extents are sums over arbitrarily many items in arbitrary order; tests only sample a few sums.", "anchors": ["pyx/bbox.py:bbox_pt.__add__", "pyx/bbox.py:bbox_pt.__iadd__", "pyx/bbox.py:bbox_pt.includepoint_pt"]}
{"id": "C02", "title": "Bounding-box intersection and overlap test agree with geometry", "statement": "a point lies in a*b exactly when it lies in both a and b, and a.intersects(b) is true exactly when the two boxes share a point; a product of two boxes that share no point should be an empty box.", "quantifier": "for all pairs of boxes and all points", "why_tests_cant": "The overlap of two rectangles has many orderings of the eight coordinates; only a proof covers all of them.", "anchors": ["pyx/bbox.py:bbox_pt.__mul__", "pyx/bbox.py:bbox_pt.__imul__", "pyx/bbox.py:bbox_pt.intersects"]}
{"id": "C03", "title": "Transforming a bounding box never clips and is tight", "statement": "The box obtained by transforming a bounding box with an affine transformation contains the image of every point of the original box, and it is the smallest such axis-parallel box.", "quantifier": "for all boxes, all affine transformations, all points of the box", "why_tests_cant": "Every real point of a rectangle and every matrix must be covered.", "anchors": ["pyx/bbox.py:bbox_pt.transform", "pyx/bbox.py:bbox_pt.transformed"]}
{"id": "C04", "title": "Enlarging a bounding box is exact and composes", "statement": "enlarging a non-empty box moves each side outward by exactly the amount given for that side (or by 'all' where none is given), enlarging twice adds up, enlarging by non-negative amounts never loses a point, and empty boxes stay empty; the transient 'enlarged' form leaves the original unchanged.", "quantifier": "for all boxes and all amounts", "why_tests_cant": "Continuous parameter space.", "anchors": ["pyx/bbox.py:bbox_pt.enlarge_pt", "pyx/bbox.py:bbox_pt.enlarged_pt"]}
{"id": "C05", "title": "Product of transformations is composition of maps", "statement": "applying t1*t2 to a point equals applying t2 and then t1; the product is associative with the identity as unit, so a chain t.rotated(..).scaled(..).translated(..) acts on every point as the operations in the written order.", "quantifier": "for all transformations, all points and all chains of any length", "why_tests_cant": "Chains of arbitrary length and arbitrary real coefficients.", "anchors": ["pyx/trafo.py:trafo_pt.__mul__", "pyx/trafo.py:trafo_pt.apply_pt", "pyx/trafo.py:trafo_pt.scaled_pt", "pyx/trafo.py:trafo_pt.translated_pt"]}
{"id": "C06", "title": "Inverse transformation undoes the transformation", "statement": "For every transformation with non-zero determinant t.inverse() applied after (or before) t is the identity on all points, the inverse of a product is the product of the inverses in reverse order, and a singular transformation is rejected instead of giving a result.", "quantifier": "for all transformations and points", "why_tests_cant": "Real-valued inputs; order of products.", "anchors": ["pyx/trafo.py:trafo_pt.inverse", "pyx/trafo.py:_rmatrix"]}
{"id": "C07", "title": "Rotations, mirrors and scalings keep their stated geometry", "statement": "rotate(angle,x,y) keeps (x,y) fixed and keeps all distances, angles add up on composition; mirror(angle) is its own inverse and keeps distances; scale about a point fixes that point; the matrix written to SVG is the same map conjugated by the vertical flip, so drawings look the same in SVG as in PS/PDF.", "quantifier": "for all angles, centres and points", "why_tests_cant": "Trigonometric identities over all real angles.", "anchors": ["pyx/trafo.py:rotate_pt", "pyx/trafo.py:_mmatrix", "pyx/trafo.py:scale_pt", "pyx/trafo.py:trafo_pt.processSVGattrs"]}
{"id": "C08", "title": "Lengths form a vector space and convert linearly under every scale setting", "statement": "Whatever sequence of unit.set calls has been made, converting a length expression to any target unit gives the value of the expression computed on the converted leaves (conversion is linear), conversions between fixed units are consistent (1 inch = 2.54 cm = 72 pt), and comparing two lengths is a total preorder that agrees with their conversion to metres; true lengths ignore every unit.set scale and the other components only their own.", "quantifier": "for all length expressions and all histories of scale settings", "why_tests_cant": "Unbounded expression trees combined with arbitrary setting histories.", "anchors": ["pyx/unit.py:length", "pyx/unit.py:set", "pyx/unit.py:_convert_to"]}
{"id": "C09", "title": "Merging attribute lists keeps exactly the last exclusive attribute", "statement": "After merging any attribute list: exactly those attributes remain that no later entry swallows (at most one of each exclusive kind, the last one given; a 'clear' entry removes precisely the attributes of the cleared kind given before it); attributes that do not sort themselves stay in the given order; attributes that sort before others stand before them; merging an already merged list changes nothing.", "quantifier": "for all attribute lists", "why_tests_cant": "Arbitrary interleavings of many attribute kinds.", "anchors": ["pyx/attr.py:mergeattrs", "pyx/attr.py:exclusiveattr.merge", "pyx/attr.py:clearclass.merge", "pyx/attr.py:sortbeforeattr.merge"]}
{"id": "C10", "title": "Changing attributes select cyclically per plotted data set", "statement": "For a cyclic changelist of n attributes, data set number i out of any total gets entry i mod n (a non-cyclic one gives nothing beyond its end), and selecting from an attribute list replaces each changeable attribute by its selected one, keeps fixed ones, in order, and gives nothing exactly if one of them selects nothing. A list with an attribute of a class that is not allowed is rejected naming the first such attribute.", "quantifier": "for all lists, indices and totals", "why_tests_cant": "Unbounded index and list length.", "anchors": ["pyx/attr.py:changelist.select", "pyx/attr.py:selectattrs", "pyx/attr.py:checkattrs"]}
{"id": "C11", "title": "Tick fractions are exact and ordered", "statement": "A rational built from a decimal/fraction string denotes exactly the number written, products and quotients are exact, and comparison of two rationals with positive denominators is the order of the numbers they denote. A rational built from a float is the float rounded to the given number of significant digits; so the float next to a decimal number of at most ten digits gives exactly this number, and integers are exact.", "quantifier": "for all strings of the documented form and all integer numerators/denominators", "why_tests_cant": "Infinitely many strings; exactness cannot be sampled.", "anchors": ["pyx/graph/axis/tick.py:rational"]}
{"id": "C12", "title": "Merging tick lists is a sorted union", "statement": "merging two sorted tick lists (the default mode) gives a sorted list containing each position of either list exactly once, and for coinciding positions keeps the more significant (lower) tick and label level of either.", "quantifier": "for all pairs of sorted tick lists", "why_tests_cant": "Arbitrary interleavings of two lists of any length.", "anchors": ["pyx/graph/axis/tick.py:mergeticklists", "pyx/graph/axis/tick.py:tick.merge"]}
{"id": "C13", "title": "Linear ticks are exactly the multiples of the tick distance in range", "statement": "linear partitioning of an axis range with a tick distance gives, in increasing order, exactly the multiples of that distance lying in the range (up to the documented relative epsilon), none missing and none outside; with extendtick the range is widened to the nearest enclosing multiples and never shrunk.", "quantifier": "for all axis ranges and all positive tick distances", "why_tests_cant": "Continuous range and distance.", "anchors": ["pyx/graph/axis/parter.py:linear.partfunction", "pyx/graph/axis/parter.py:linear.getticks", "pyx/graph/axis/parter.py:linear.extendminmax"]}
{"id": "C14", "title": "Automatic tick search walks monotonically through tick distances", "statement": "Starting from the initial guess, the 'less' direction of the automatic linear partitioner yields strictly increasing tick distances and the 'more' direction strictly decreasing ones, each a variant times a power of ten, without ever repeating a partition.", "quantifier": "for every number of steps and every strictly increasing list of variants within one decade", "why_tests_cant": "The search may run for arbitrarily many steps.", "anchors": ["pyx/graph/axis/parter.py:autolinear"]}
{"id": "C15", "title": "Automatic axis range is the exact data range whatever the order of data", "statement": "After any sequence of data columns, an automatic axis has min/max equal to the smallest/largest number seen (ignoring non-numbers), independent of the order and grouping of the columns; a bound fixed by the user is never changed by data.", "quantifier": "for all sequences of data columns", "why_tests_cant": "Order- and grouping-independence over all histories.", "anchors": ["pyx/graph/axis/axis.py:_regularaxis.adjustaxis", "pyx/graph/axis/axis.py:_regularaxis.createdata"]}
{"id": "C16", "title": "Axis conversion maps the range onto the graph unit interval monotonically", "statement": "On a linear axis min maps to 0, max to 1, values between map strictly between and order is preserved (reversed for a reversed axis); a logarithmic axis does the same for positive data with equal ratios giving equal distances.", "quantifier": "for all ranges and values", "why_tests_cant": "Real-valued monotonicity.", "anchors": ["pyx/graph/axis/axis.py:linear.convert", "pyx/graph/axis/axis.py:logarithmic.convert"]}
{"id": "C17", "title": "Bars of a bar axis tile the axis", "statement": "The sub-ranges allotted to the bars of a bar axis are disjoint, in order, lie inside [0,1], have widths proportional to the bar sizes and, together with the configured gaps, fill the axis completely.", "quantifier": "for every number of bars, all positive sizes and all gap settings", "why_tests_cant": "Unbounded number of bars with arbitrary sizes.", "anchors": ["pyx/graph/axis/axis.py:bar"]}
{"id": "C18", "title": "Decimal tick labels print the exact tick value", "statement": "The text produced by the decimal labeller, read back as a decimal number (with the period mark and the overline-repeated part), is exactly the tick's value, for terminating and for recurring decimals.", "quantifier": "for all rationals", "why_tests_cant": "Infinitely many fractions; recurring expansions of any length.", "anchors": ["pyx/graph/axis/texter.py:decimal.labels"]}
{"id": "C19", "title": "Fraction tick labels denote the tick value in lowest terms", "statement": "With reduction enabled, numerator/denominator texts of the rational labeller have no common factor and the quotient (times suffix and sign) is exactly the tick value.", "quantifier": "for all lists of ticks", "why_tests_cant": "Unbounded integers.", "anchors": ["pyx/graph/axis/texter.py:rational.labels", "pyx/graph/axis/texter.py:rational.gcd"]}
{"id": "C20", "title": "Type 1 encryption and decryption are mutually inverse", "statement": "Decrypting what the eexec/charstring encryption produced gives back the original bytes for every key, every byte string and every random prefix, and the ciphertext has exactly the length of prefix plus data and only byte values.", "quantifier": "for all byte strings, prefixes and 16-bit keys", "why_tests_cant": "Key state depends on the entire prefix history.", "anchors": ["pyx/font/t1code.py:decoder", "pyx/font/t1code.py:encoder", "pyx/font/_t1code.c"]}
{"id": "C21", "title": "Type 1 charstring coding round-trips", "statement": "Encoding a list of charstring commands and 32-bit integers and decoding it again returns the same list, and every byte is in 0..255.", "quantifier": "for all command lists and integers in the 32-bit range", "why_tests_cant": "Five integer encodings with boundaries, concatenated arbitrarily.", "anchors": ["pyx/font/t1file.py:T1File._cmds", "pyx/font/t1file.py:T1File._code"]}
{"id": "C22", "title": "ASCII85 stream output is decodable to the original data", "statement": "The text written by the ASCII85 stream encoder for any byte string decodes (by the PostScript ASCII85Decode rules) to exactly that byte string, uses only legal characters, and the announced number of lines equals the number written.", "quantifier": "for all byte strings", "why_tests_cant": "All lengths modulo 4 and line-break positions.", "anchors": ["pyx/bitmap.py:ascii85stream", "pyx/bitmap.py:ascii85lines"]}
{"id": "C23", "title": "Big-endian reader integers are exact", "statement": "reading an n-byte (signed or unsigned) integer that was stored big-endian returns the stored number, consuming exactly n bytes, so that consecutive reads stay in step.", "quantifier": "for all integers representable and all trailing data", "why_tests_cant": "Full 32-bit range and sign boundary.", "anchors": ["pyx/reader.py:reader.readint", "pyx/reader.py:reader.readint32", "pyx/reader.py:reader.readint24"]}
{"id": "C24", "title": "PFB container round-trips", "statement": "A Type 1 font file in PFB container form with clear-text, one or several binary segments and trailer parses into exactly the concatenated parts; wrong markers or trailing garbage are rejected.", "quantifier": "for all segment contents and any number of binary segments", "why_tests_cant": "Unbounded lengths and segment counts.", "anchors": ["pyx/font/t1file.py:T1File.from_PFB_bytes", "pyx/font/t1file.py:T1File.outputPFB"]}
{"id": "C25", "title": "TFM character info words are unpacked to the right byte fields", "statement": "For every 32-bit word, the width, height, depth, tag, italic and remainder indices are the bit-fields defined by the TFM format, also for words whose top bit is set (read as negative numbers).", "quantifier": "for all 32-bit words", "why_tests_cant": "2^32 inputs.", "anchors": ["pyx/dvi/tfmfile.py:char_info_word"]}
{"id": "C26", "title": "TFM lengths scale to DVI units exactly as TeX does", "statement": "converting a TFM fix-word to DVI units gives the same integer as TeX's prescribed byte-wise algorithm, for positive and negative fix-words.", "quantifier": "for all legal fix-words and all font sizes up to 2^27 sp", "why_tests_cant": "Rounding of nested divisions over a huge domain.", "anchors": ["pyx/dvi/texfont.py:TeXFont._convert_tfm_to_dvi"]}
{"id": "C27", "title": "Virtual font files parse to the packets they contain", "statement": "Parsing a well-formed virtual font file yields exactly the character packets (code, width, DVI commands) and font definitions it contains.", "quantifier": "for all lists of packets, short and long form", "why_tests_cant": "Unbounded number of packets of arbitrary content.", "anchors": ["pyx/dvi/vffile.py:vffile"]}
{"id": "C28", "title": "DVI pages place every glyph and rule where the DVI semantics puts it", "statement": "The text and rules produced from any DVI page program sit at the positions given by the DVI position registers (h,v,w,x,y,z with push/pop), although characters are collected into runs that are only flushed later.", "quantifier": "for all DVI command sequences", "why_tests_cant": "Arbitrary command sequences with deferred flushing.", "anchors": ["pyx/dvi/dvifile.py:DVIfile.readpage", "pyx/dvi/dvifile.py:DVIfile.flushtext", "pyx/dvi/dvifile.py:DVIfile.putchar"]}
{"id": "C29", "title": "Every legal DVI command is accepted", "statement": "A page consisting of legal DVI commands (including no-ops) is converted without an error.", "quantifier": "for all legal page programs", "why_tests_cant": "All command sequences.", "anchors": ["pyx/dvi/dvifile.py:DVIfile.readpage"]}
{"id": "C30", "title": "PDF cross-reference table points at the objects", "statement": "In a written PDF file object numbers are 1..n without gaps, each object is registered at most once under its type and id, each cross-reference entry is the byte offset at which the object with that number starts, and every reference written resolves to an object of the file.", "quantifier": "for all registration sequences", "why_tests_cant": "Any number of objects of any size added in any order during the write.", "anchors": ["pyx/pdfwriter.py:PDFregistry"]}
{"id": "C31", "title": "PDF literal strings survive quoting", "statement": "A text put into the PDF info/annotations via the PDF string writer is read back by the PDF literal-string rules as the same text, whatever parentheses, backslashes or control characters it contains.", "quantifier": "for all strings of byte-range characters", "why_tests_cant": "All strings.", "anchors": ["pyx/pdfwriter.py:PDFinfo.write"]}
{"id": "C32", "title": "PDF creation date carries the correct UTC offset", "statement": "The time-zone suffix of the creation date written to a PDF denotes the local offset from UTC.", "quantifier": "for all time zones", "why_tests_cant": "All offsets, positive, negative and fractional hours.", "anchors": ["pyx/pdfwriter.py:PDFinfo.write"]}
{"id": "C33", "title": "Graphics state saves and restores are balanced and text sections well formed", "statement": "In the PS and PDF stream of any canvas tree every save has its restore, the graphics state after an inserted canvas equals that before it, and in PDF text sections BT..ET never nest and contain no path painting or save/restore operator.", "quantifier": "for all canvas trees", "why_tests_cant": "Trees of unbounded depth with text and non-text items in any order.", "anchors": ["pyx/canvas.py:canvas.processPS", "pyx/canvas.py:canvas.processPDF"]}
{"id": "C34", "title": "Nested canvases place their content by the composed transformation and clip", "statement": "An item inserted in nested canvases appears transformed by the product of the canvas transformations (attributes applied in list order) and the canvas bounding box is the transformed, clipped union of the item boxes.", "quantifier": "for all canvas trees and attribute lists", "why_tests_cant": "Unbounded nesting and attribute orders.", "anchors": ["pyx/canvas.py:canvas.__init__", "pyx/canvas.py:canvas.bbox", "pyx/canvas.py:canvas.insert"]}
{"id": "C35", "title": "Layers keep the order asked for", "statement": "After canvas.layer(name, above=a) the layer is immediately above a (below: immediately below), all other layers keep their relative order, no layer is lost or doubled, and asking for an existing layer without placement leaves the order unchanged; a failing call leaves the canvas unchanged.", "quantifier": "for all histories of layer calls", "why_tests_cant": "Arbitrary call histories.", "anchors": ["pyx/canvas.py:canvas.layer"]}
{"id": "C36", "title": "A page places its content centred and fitted within the margins", "statement": "With a paper format given, centred content has equal space left/right and top/bottom, fit-to-size content lies within the margins and touches them in at least one direction without distorting the aspect ratio; rotated pages likewise.", "quantifier": "for all content boxes, paper sizes and margins", "why_tests_cant": "Continuous parameters.", "anchors": ["pyx/document.py:page._process"]}
{"id": "C37", "title": "Colour conversions stay in the legal range and invert where they should", "statement": "Converting any legal grey/RGB/CMYK colour to another model gives a legal colour; grey to RGB/CMYK and back gives the same grey; RGB to CMYK and back gives the same RGB; constructors reject every component outside [0,1].", "quantifier": "for all colours", "why_tests_cant": "Continuous cube of inputs.", "anchors": ["pyx/color.py:rgb.cmyk", "pyx/color.py:cmyk.rgb", "pyx/color.py:cmyk.grey"]}
{"id": "C38", "title": "Hex colour strings round-trip at 8 bit", "statement": "the hex string of an RGB colour, read back, gives a colour whose components differ from the original by less than 1/255, and colours that came from a hex string are reproduced exactly.", "quantifier": "for all colours and all hex strings", "why_tests_cant": "All 2^24 strings and continuous input.", "anchors": ["pyx/color.py:rgb.tohexstring", "pyx/color.py:rgbfromhexstring"]}
{"id": "C39", "title": "Gradients give legal colours on the whole parameter range", "statement": "every linear gradient and the built-in palettes yield a legal colour for each parameter in [0,1], interpolating between end colours; selecting for n data sets uses parameter index/(n-1).", "quantifier": "for all parameters in [0,1]", "why_tests_cant": "Continuous parameter.", "anchors": ["pyx/color.py:lineargradient_rgb", "pyx/color.py:functiongradient_rgb", "pyx/color.py:gradient.select"]}
{"id": "C40", "title": "Splitting a Bezier curve at parameters reparametrises it exactly", "statement": "The sub-curves obtained by splitting a curve at increasing parameters trace exactly the same points: sub-curve i at parameter s equals the curve at t_i+s*(t_(i+1)-t_i), and neighbouring sub-curves share their end point.", "quantifier": "for all control points, all parameter lists and all s", "why_tests_cant": "Polynomial identities over all reals; any number of split points.", "anchors": ["pyx/normpath.py:normcurve_pt.segments", "pyx/normpath.py:normcurve_pt._split", "pyx/normpath.py:normcurve_pt.at_pt"]}
{"id": "C41", "title": "Curve bounding boxes contain the curve and are tight", "statement": "The bounding box computed for a curve contains every point of the curve at parameters in [0,1], and each side is touched.", "quantifier": "for all control points and all parameters in [0,1]", "why_tests_cant": "Continuum of parameters and cubic extrema cases.", "anchors": ["pyx/path.py:_bezierpolyrange", "pyx/normpath.py:normcurve_pt.bbox"]}
{"id": "C42", "title": "Transforming a path item commutes with evaluating it", "statement": "The point at a parameter of a transformed line or curve is the transformed point of the original, its tangent is the image under the linear part; reversing maps parameter t to 1-t and reversing twice restores the item.", "quantifier": "for all items, transformations, parameters", "why_tests_cant": "Real parameters.", "anchors": ["pyx/normpath.py:normline_pt.transformed", "pyx/normpath.py:normcurve_pt.transformed", "pyx/normpath.py:normline_pt.reversed", "pyx/normpath.py:normcurve_pt.at_pt"]}
{"id": "C43", "title": "Line intersections are sound and complete", "statement": "Intersecting two straight segments yields parameters in [0,1] at which both segments have the same point, and if the non-parallel segments have a common point it is found.", "quantifier": "for all pairs of segments", "why_tests_cant": "Continuous.", "anchors": ["pyx/normpath.py:normline_pt.intersect"]}
{"id": "C44", "title": "Normalised sub-paths stay connected", "statement": "Any sub-path built by appending, extending, joining, closing, reversing or splitting connected input is connected (each item starts where the previous ends), and a closed sub-path ends where it starts; closed sub-paths reject further items.", "quantifier": "for all operation histories", "why_tests_cant": "Unbounded histories.", "anchors": ["pyx/normpath.py:normsubpath.append", "pyx/normpath.py:normsubpath.close", "pyx/normpath.py:normsubpath.join"]}
{"id": "C45", "title": "Splitting a path and joining the pieces restores the path", "statement": "Splitting a path at any list of increasing parameters yields pieces whose points in sequence are the points of the original path; piece boundaries are at the split points, and piece count is one more than the number of split points for an open path.", "quantifier": "for all paths and parameter lists", "why_tests_cant": "Unbounded number of sub-paths and split points.", "anchors": ["pyx/normpath.py:normsubpath.segments", "pyx/normpath.py:normpath._split_pt"]}
{"id": "C46", "title": "Arc length and parameter are mutually inverse on straight paths", "statement": "for polygonal paths the point at arc length s is at distance s along the path; converting arc length to a parameter and back is the identity within the path length, and lengths of split pieces add up to the whole length.", "quantifier": "for all polylines and lengths", "why_tests_cant": "Unbounded number of segments.", "anchors": ["pyx/normpath.py:normsubpath._arclentoparam_pt", "pyx/normpath.py:normline_pt._arclentoparam_pt"]}
{"id": "C47", "title": "PostScript and PDF output of a path draw the same line", "statement": "For each path the PDF rendering (through the normalised path) draws the same segments as the direct PostScript operators.", "quantifier": "for all paths of move/line/curve/close items", "why_tests_cant": "All item sequences.", "anchors": ["pyx/path.py:path.normpath", "pyx/path.py:path.outputPS", "pyx/normpath.py:normsubpath.outputPDF"]}
{"id": "C48", "title": "Relative path operators equal their absolute counterparts", "statement": "A path using rmoveto/rlineto/rcurveto draws the same points as the path with the absolute operators obtained by adding the current point, in all output formats, with the same bounding box.", "quantifier": "for all paths", "why_tests_cant": "Any sequence mixing relative and absolute operators.", "anchors": ["pyx/path.py:rlineto_pt", "pyx/path.py:rmoveto_pt", "pyx/path.py:rcurveto_pt"]}
{"id": "C49", "title": "Arc bounding boxes contain the arc", "statement": "The bounding box computed for a circular arc contains every point of the arc and its end points are on the circle.", "quantifier": "for all centres, radii and angles", "why_tests_cant": "Continuum of angles including wrap-around.", "anchors": ["pyx/path.py:_arcbboxdata"]}
{"id": "C50", "title": "Excluding ranges from a decorated path removes exactly those ranges", "statement": "After any sequence of excluderange calls on a decorated path, the recorded ranges are disjoint and sorted and their union is the union of all requested ranges; the stroked remainder is exactly the complement.", "quantifier": "for all sequences of ranges", "why_tests_cant": "Arbitrary overlap patterns.", "anchors": ["pyx/deco.py:decoratedpath.excluderange", "pyx/deco.py:decoratedpath.strokepath"]}
{"id": "C51", "title": "Connector geometry meets its end points and arguments", "statement": "The arc connector is a circular arc through both centers whose largest normal distance from the straight line is absbulge + relbulge*distance on the left for positive values (or whose tangents make the angle relangle with the line); the curve connector leaves and reaches the centers in the given directions with control points at the given bulge; the middle point of the two-line connector has the requested distances and lies in the requested directions from the centers; any other number than two of its arguments is rejected.", "quantifier": "for all pairs of distinct centers and all real parameters", "why_tests_cant": "Continuous parameter space; the cases (sine theorem, cosine theorem, missing length) fail only in regions of it.", "anchors": ["pyx/connector.py:arc_pt", "pyx/connector.py:curve_pt", "pyx/connector.py:twolines_pt"]}
{"id": "C52", "title": "Box distance and alignment are exact", "statement": "For a convex box with corners ordered counterclockwise: linealign(a, dx, dy) moves the box in the direction (dx, dy) so that its nearest corner is exactly at distance a from the center measured along the direction and the whole box lies beyond that line; circlealign does the same for the circle of radius a around the center (or fails if the box cannot reach it); extent is the difference of the largest and smallest projection of the corners; pointdistance and boxdistance are the Euclidean minimum over the boundaries, and BoxCrossError is raised for crossing boxes.", "quantifier": "for all convex polygons with any number of corners, points, directions of any length and distances", "why_tests_cant": "Continuous in all arguments, any number of corners; which corner or side is used depends on the labels of all sides.", "anchors": ["pyx/box.py:polygon_pt.linealign_pt", "pyx/box.py:polygon_pt.circlealign_pt", "pyx/box.py:polygon_pt.alignvector_pt", "pyx/box.py:polygon_pt.extent_pt", "pyx/box.py:polygon_pt.pointdistance_pt", "pyx/box.py:polygon_pt.boxdistance_pt"]}
{"id": "C53", "title": "24-bit mesh coordinates are accurate to one step", "statement": "Each mesh coordinate, decoded by the shading rules from its 24-bit form, differs from the original by less than 1/(2^24-1) of the range and stays in the range; a non-empty range is required.", "quantifier": "for all coordinates in the range", "why_tests_cant": "Continuous.", "anchors": ["pyx/mesh.py:coords24bit_pt"]}
{"id": "C54", "title": "Keyword splitting loses and duplicates nothing", "statement": "Splitting keyword arguments by prefixes puts each argument into exactly one place: under its stripped name in the group of its prefix if that group is wanted, unchanged in the rest otherwise; no group is empty; and it raises exactly if only groups are allowed and an argument belongs to none.", "quantifier": "for all argument dictionaries", "why_tests_cant": "All key sets.", "anchors": ["pyx/utils.py:kwsplit"]}
{"id": "C55", "title": "Resource files are found in the configured order", "statement": "A file is opened from the first configured locator able to provide it, trying the name variants in order; local lookups open the first variant that exists; recursive directory searches find a file below the configured directories whenever there is one, taking the first directory containing one; ls-R lookups use the first listing; a repeated request gives the same file.", "quantifier": "for all locator configurations, file systems, names and request histories", "why_tests_cant": "All combinations of present files and all request histories.", "anchors": ["pyx/config.py:open", "pyx/config.py:local.openers", "pyx/config.py:internal.openers", "pyx/config.py:recursivedir.openers", "pyx/config.py:ls_R.openers", "pyx/config.py:kpsewhich.openers", "pyx/config.py:full_filenames"]}
{"id": "C56", "title": "Last font map entry wins", "statement": "Reading several font map files gives for each TeX font name the entry of the last line defining it; a line whose fields cannot be understood is ignored and discards no other line; the fields of a line are put where the map file syntax says (plain words, encoding files, font files, quoted PostScript fragments).", "quantifier": "for all map files, i.e. all sequences of lines of all characters", "why_tests_cant": "All line sequences and all characters in a line.", "anchors": ["pyx/dvi/mapfile.py:readfontmap", "pyx/dvi/mapfile.py:MAPline.__init__"]}
{"id": "C57", "title": "Joined data keep every row and pad with missing values", "statement": "Joining data sets yields columns that all have the total row count; each row keeps its values and gets missing values in columns its data set lacks.", "quantifier": "for all lists of data sets", "why_tests_cant": "Any number of data sets with different columns.", "anchors": ["pyx/graph/data.py:join.merge_dicts"]}
{"id": "C58", "title": "File data rows follow skiphead, every and skiptail", "statement": "Reading a data file yields exactly the non-comment, non-empty lines after the first skiphead data lines and before the last skiptail data lines, every every-th of them, with their line numbers in column 0, padded with missing values to equal width.", "quantifier": "for all files and settings", "why_tests_cant": "Unbounded line sequences.", "anchors": ["pyx/graph/data.py:file.__init__"]}
{"id": "C59", "title": "Config-file data accept sections with new options", "statement": "A config-like data file in which different sections define different options is read as a table with missing values for absent options.", "quantifier": "for all config contents", "why_tests_cant": "All section/option sets.", "anchors": ["pyx/graph/data.py:conffile.__init__"]}
{"id": "C60", "title": "Stripped fonts render like the full font", "statement": "A stripped Type 1 font contains every requested glyph and each subroutine and accent component these use, so that each requested glyph expands to the same drawing commands as in the full font.", "quantifier": "for all fonts and glyph sets", "why_tests_cant": "Call graphs of arbitrary shape.", "anchors": ["pyx/font/t1file.py:T1File.getstrippedfont", "pyx/font/t1file.py:T1File.gathercalls", "pyx/font/t1file.py:T1File.getdata2"]}
{"id": "C61", "title": "MetaPost-like paths are smooth at smooth knots", "statement": "The direction angles chosen for an open run or a cycle of smooth knots are the only solution of Hobby's mock-curvature equations with the given directions or curls at the ends. In the path that is drawn, the segment before a smooth knot between two curves and the segment behind it have the same tangent, a curve leaves and arrives in the directions given at its knots, and a control point with an 'at least' tension stays inside the triangle formed by the tangents.", "quantifier": "for all numbers and positions of knots (neighbours not closer than epsilon), all tensions of at least 3/4, all curls that are not negative and all given directions; open and closed paths with any mixture of knots and links", "why_tests_cant": "Linear systems of any size over all positions; tests compare a dozen curves with the output of MetaPost.", "anchors": ["pyx/metapost/mp_path.py:mp_solve_choices", "pyx/metapost/mp_path.py:mp_set_controls", "pyx/metapost/mp_path.py:mp_velocity", "pyx/metapost/mp_path.py:mp_curl_ratio", "pyx/metapost/mp_path.py:reduce_angle", "pyx/metapost/path.py:path.__init__", "pyx/metapost/mp_path.py:mp_make_choices"]}
{"id": "C62", "title": "Polynomial roots returned are roots and none is missed", "statement": "The list returned for the coefficients of a polynomial of degree up to four (with leading zeros dropped) contains exactly the real solutions of the equation.", "quantifier": "for all real coefficients", "why_tests_cant": "Continuous coefficients and degenerate leading coefficients.", "anchors": ["pyx/mathutils.py:realpolyroots", "pyx/mathutils.py:_realroots_quadratic", "pyx/mathutils.py:_realroots_cubic", "pyx/mathutils.py:_realroots_quartic"]}
{"id": "C63", "title": "Interleaved image data split and merge losslessly", "statement": "Splitting image data with an alpha channel into colour and alpha planes keeps each sample exactly once and re-interleaving gives the original bytes.", "quantifier": "for all images", "why_tests_cant": "All sizes and bytes.", "anchors": ["pyx/bitmap.py:image.split", "pyx/bitmap.py:imagedata"]}
{"id": "C64", "title": "PostScript bounding boxes written never cut the drawing", "statement": "the integer %%BoundingBox encloses the exact box and is the smallest such integer box.", "quantifier": "for all boxes", "why_tests_cant": "Continuous.", "anchors": ["pyx/bbox.py:bbox_pt.lowrestuple_pt"]}
{"id": "C65", "title": "PFA hexadecimal section encodes exactly the encrypted data", "statement": "The hexadecimal section written by T1file.outputPFA has lines of at most 64 digits, no empty line, and decodes to exactly the encrypted portion of the font.", "quantifier": "for all font data", "why_tests_cant": "All data lengths, including multiples of the line length.", "anchors": ["pyx/font/t1file.py:T1file.outputPFA"]}
{"id": "C66", "title": "Logarithmic ticks are exactly the scaled powers in range", "statement": "A logarithmic partition of an all positive or all negative range gives, in increasing order and each position once, exactly the numbers (plus or minus) pre * exp^i lying in the range (up to the documented epsilon), with the level of the first list a position belongs to; for other ranges it refuses.", "quantifier": "for all ranges, all lists of positive pre-factors and every integer base >= 2", "why_tests_cant": "Continuous ranges spanning any number of decades and arbitrary pre-factors.", "anchors": ["pyx/graph/axis/parter.py:logarithmic.getticks", "pyx/graph/axis/parter.py:linear.partfunction"]}
{"id": "C67", "title": "Logarithmic axis ranges are extended to the nearest enclosing tick", "statement": "extendminmax of a logarithmic partition moves a bound that is to be extended to the nearest enclosing tick position (largest tick not above the minimum, smallest not below the maximum, up to epsilon) and leaves a bound that is not to be extended unchanged.", "quantifier": "for all ranges of one sign and every list of pre-factors ascending within one period", "why_tests_cant": "The wrap-around between periods depends on continuous data.", "anchors": ["pyx/graph/axis/parter.py:logarithmic.extendminmax"]}
{"id": "C68", "title": "Ratings of partitions", "statement": "A cube rater gives 0 exactly at the optimal number of ticks, its weight at the left and right number, never a negative value, and a strictly worse rating the farther the number is from the optimum; the number rated for a tick level is the number of ticks of this or a more important level; the distance rater is never negative and 0 exactly if all labels have the optimal distance.", "quantifier": "for all raters with left < opt < right and positive weight, all densities > 0, all numbers and lists of ticks and distances", "why_tests_cant": "monotonicity and non-negativity hold over a continuum of values and parameters", "anchors": ["pyx/graph/axis/rater.py:cube.rate", "pyx/graph/axis/rater.py:distance.rate", "pyx/graph/axis/rater.py:rater.rateticks"]}
{"id": "C69", "title": "The best partition is chosen", "statement": "Among all partitions found by the automatic search, the axis is drawn with one that has the least total rating (ticks, range and layout), although layouts are computed lazily; an error is reported only if no partition is suitable. The search in one direction stops only when the last maxworse partitions did not improve the best rating, and records every suitable one.", "quantifier": "for all finite sets of variants with arbitrary ratings and layouts, all streams of partitions", "why_tests_cant": "the lazy evaluation order depends on all ratings; optimality must hold for each combination", "anchors": ["pyx/graph/axis/axis.py:_regularaxis._create"]}
{"id": "C70", "title": "Rotated labels are never upside down", "statement": "rotatetext turns a label to a direction that differs from the requested one by a multiple of 180 degrees and lies between -90 and 90 degrees (up to the documented tolerance); the computation terminates for every angle.", "quantifier": "for all angles", "why_tests_cant": "four while loops over unbounded angles", "anchors": ["pyx/graph/axis/painter.py:rotatetext.trafo"]}
{"id": "C71", "title": "Exponential tick labels denote the tick value", "statement": "Every label of the default labeller, read back (plain decimal number, or mantissa times base to the power of the exponent, or a bare power with optional minus), is exactly the tick's value; with uniformexponent all non-zero labels use the same notation, and exponential notation is used exactly when an exponent reaches the limits.", "quantifier": "for all lists of ticks, all bases > 1, all limits and all rules for omitting unity mantissas", "why_tests_cant": "the value is unbounded and the notation of one label depends on all others", "anchors": ["pyx/graph/axis/texter.py:default.labels"]}
{"id": "C72", "title": "A PDF page lists the annotations placed on it", "statement": "The annotation array of each page of a written PDF contains exactly the annotations (form fields, links) placed on that page.", "quantifier": "for all documents", "why_tests_cant": "annotations are collected through registries merged between any number of pages", "anchors": ["pyx/pdfwriter.py:PDFannotations", "pyx/pdfwriter.py:PDFpage.write", "pyx/pdfwriter.py:PDFregistry.mergeregistry"]}
{"id": "C73", "title": "Arc length of curves is accurate", "statement": "The arc length calculated for a B\u00e9zier curve terminates for every positive precision; the lower bound does not exceed, the upper bound is not less than the true length (supremum of the lengths of inscribed polygons), and both differ by less than twice the precision.", "quantifier": "for all curves and precisions", "why_tests_cant": "True arc lengths have no closed form; continuum of curves.", "anchors": ["pyx/normpath.py:normcurve_pt.arclen_pt", "pyx/normpath.py:normcurve_pt._split"]}
{"id": "C74", "title": "PNG output decodes to the image", "statement": "A PNG file written for an image is read back, by a reader following the PNG specification, as an image of the same width, height, colour type and palette whose rows of pixels are the data of the image in order; chunk order, lengths and checksums are right; saving succeeds for all supported images.", "quantifier": "for all images, palettes, and all compression and checksum functions", "why_tests_cant": "All sizes and bytes.", "anchors": ["pyx/bitmap.py:image.save"]}
{"id": "C75", "title": "splitatvalue puts a value into the documented section", "statement": "splitatvalue returns the value together with its section: with one split point 0 up to it and 1 beyond; with more, section m after 2m split points and no section after an odd number of them.", "quantifier": "for all values and lists of split points", "why_tests_cant": "All lists and orders.", "anchors": ["pyx/graph/data.py:splitatvalue"]}
{"id": "C76", "title": "Point lists become columns without mixing rows", "statement": "points accepts a list of rows exactly if they have equal lengths and the column numbers exist; each named column then has one value per row: that with its number in the row, with the line number as column 0 if wanted. values keeps its columns and rejects different lengths.", "quantifier": "for all lists of rows and column numbers (also negative)", "why_tests_cant": "All shapes.", "anchors": ["pyx/graph/data.py:points", "pyx/graph/data.py:values"]}
{"id": "C77", "title": "Derived data evaluate each expression row by row", "statement": "A column of derived data is the source column of that name or number, or else the values of the expression in each row, with the source columns hiding the names of the user and missing values for arithmetic errors; other source columns are copied unless hidden; the number of rows stays.", "quantifier": "for all sources, contexts and column arguments", "why_tests_cant": "Any evaluation and table.", "anchors": ["pyx/graph/data.py:data"]}
{"id": "C78", "title": "Functions are sampled from the minimum to the maximum in equal steps", "statement": "For n >= 2 points a function is evaluated at n arguments from the minimum to the maximum inclusively, equally spaced (with a constant quotient on a logarithmic axis), and each value stands in the row of its argument; parametric functions give one column per name.", "quantifier": "for all ranges and numbers of points", "why_tests_cant": "All n and ranges.", "anchors": ["pyx/graph/data.py:function.dynamiccolumns", "pyx/graph/data.py:paramfunction"]}
{"id": "C79", "title": "Fields of data lines are read back as written", "statement": "A line of fields separated by spaces, where fields in quotes may contain spaces, is read as these fields; the short cut for lines without quotes gives the same as the patterns.", "quantifier": "for all lines", "why_tests_cant": "All texts.", "anchors": ["pyx/graph/data.py:file.splitline"]}
{"id": "C80", "title": "Column names come from the last non-empty comment before the data", "statement": "The names of the columns of a data file are the fields of the last non-empty comment line before the data.", "quantifier": "for all files", "why_tests_cant": "All line sequences.", "anchors": ["pyx/graph/data.py:file.__init__"]}
{"id": "C81", "title": "Tangent arcs touch both legs of the corner", "statement": "arct(p1, p2, r) draws a line towards the corner p1 and a circular arc of radius r which touches the line from the current point to p1 and the line from p1 to p2, turning by less than 180 degrees in the direction of the corner; on a straight line it just draws the line to p1.", "quantifier": "for all current points, corners and radii", "why_tests_cant": "Real trigonometry over all directions; tests check single corners.", "anchors": ["pyx/path.py:arct_pt._pathitems"]}
{"id": "C82", "title": "Arcs are approximated by Bezier curves on the circle", "statement": "The Bezier curves which replace an arc begin and end at the begin and end of the arc, are joined, their middle points are on the circle and all points are within a relative distance of 1/200000 of the circle.", "quantifier": "for all centres, radii and angles", "why_tests_cant": "All points of all curves; a test can only sample parameters.", "anchors": ["pyx/path.py:_arctobezierpath", "pyx/path.py:_arctobcurve"]}
{"id": "C83", "title": "The bounding box of a path is the smallest box around its points", "statement": "path.bbox() contains every point of every line, curve and arc of the path and each box containing all of them contains it.", "quantifier": "for all paths (sequences of path items)", "why_tests_cant": "Infinitely many points on each item; all sequences of items.", "anchors": ["pyx/path.py:path.bbox", "pyx/path.py:_bezierpolyrange", "pyx/path.py:_arcbboxdata"]}
{"id": "C84", "title": "SVG path data draw the mirrored path", "statement": "The SVG path data describe the figures of the PostScript operators with mirrored y coordinates; arcs are split into SVG arcs of the same circle with correct large-arc and sweep flags.", "quantifier": "for all paths", "why_tests_cant": "All sequences of items and all angles.", "anchors": ["pyx/path.py:path.returnSVGdata", "pyx/path.py:arc_pt.returnSVGdata", "pyx/path.py:arcn_pt.returnSVGdata"]}
{"id": "C85", "title": "Lists of boxes, default center and bounding box", "statement": "linealignequal moves all boxes by one common vector such that no box is nearer than a and one touches; circlealignequal moves all boxes by one common vector such that no box overlaps the circle with radius a around its center and one touches its circle, and raises an error only if a box never meets its circle; tile puts boxes which begin at the same place at least a apart in the given direction; the default center is the mean of the corners, a relative transformation acts around the center, and the bounding box of a polygon is the smallest one containing the corners.", "quantifier": "for all lists of convex polygons, all distances and directions", "why_tests_cant": "Any number of boxes and corners, continuous parameters.", "anchors": ["pyx/box.py:genericalignequal_pt", "pyx/box.py:circlealignequal_pt", "pyx/box.py:tile_pt", "pyx/box.py:polygon_pt._ensurecenter", "pyx/box.py:polygon_pt.reltransform", "pyx/box.py:polygon_pt.bbox"]}
{"id": "C86", "title": "Bitmaps are placed alike in all output formats", "statement": "Every corner of the pixel grid of a bitmap appears at the same place in PostScript, PDF and SVG, namely where the transformation maps the corresponding point of the unit square (first row on top); bitmap() honours position, width, height, ratio and resolution.", "quantifier": "for all image sizes, transformations and arguments", "why_tests_cant": "All transformations and pixels.", "anchors": ["pyx/bitmap.py:bitmap_trafo.processPS", "pyx/bitmap.py:bitmap_trafo.processPDF", "pyx/bitmap.py:bitmap_trafo.processSVG", "pyx/bitmap.py:bitmap_pt.__init__"]}
{"id": "C87", "title": "Different images in a PDF file stay different", "statement": "Each bitmap of a PDF document is painted with its own size, mode, data and alpha channel.", "quantifier": "for all lists of bitmaps in a document", "why_tests_cant": "All combinations of bitmaps in one file.", "anchors": ["pyx/bitmap.py:bitmap_trafo.processPDF", "pyx/bitmap.py:bitmap_trafo.imagedata", "pyx/pdfwriter.py:PDFregistry.add"]}
{"id": "C88", "title": "Stored PostScript image data are the image data", "statement": "The array of strings written for stored image data is read by a PostScript scanner as strings within the length limit that together are the image data.", "quantifier": "for all data and string length limits", "why_tests_cant": "All lengths and bytes.", "anchors": ["pyx/bitmap.py:PSimagedata.output", "pyx/bitmap.py:ascii85stream"]}
{"id": "C89", "title": "JPEG files are recognised", "statement": "A JPEG file is accepted with exactly the bytes from its start marker to its end marker, and with the width, height, components and resolution of its headers.", "quantifier": "for all JPEG files (sequences of segments and entropy-coded data)", "why_tests_cant": "All sequences of segments.", "anchors": ["pyx/bitmap.py:jpegimage.__init__"]}
{"id": "C90", "title": "Written private font data is read back", "statement": "Reading the private part of a Type 1 font, writing any selection of its subroutines and glyphs with getdata2 and reading the result gives exactly the selected subroutines and glyphs, byte for byte, whatever bytes the encrypted charstrings contain and in whichever order the Subrs and CharStrings arrays come.", "quantifier": "for all font data that can be read and whose two arrays do not overlap, all selections", "why_tests_cant": "Charstrings are binary data that may contain separators, slashes, keys or anything else; only finitely many fonts can be tried.", "anchors": ["pyx/font/t1file.py:T1File._data2decode", "pyx/font/t1file.py:T1File.getdata2", "pyx/reader.py:PSbytes_tokenizer", "pyx/reader.py:PStokenizer.gettoken"]}
{"id": "C91", "title": "The path of a Type 1 glyph is the outline its charstring describes", "statement": "For every Type 1 font and every glyph whose charstring can be executed according to the Type 1 specification, T1File.getglyphpath_pt returns a path drawing exactly the lines, curves and closing lines described by the charstring (including flex sections, hint replacement, subroutine calls and the components of composite glyphs), transformed by the requested transformation, together with the transformed width of the glyph.", "quantifier": "all fonts, all glyphs, all charstrings executable by the specification, all nesting depths, all transformations, flex on or off", "why_tests_cant": "There are infinitely many charstrings, and errors show only as slightly displaced outlines or widths in unusual fonts: composite glyphs with a side bearing, fractional coordinates, counter hints before a flex section.", "anchors": ["pyx/font/t1file.py:T1File.getglyphpath_pt", "pyx/font/t1file.py:T1File.updatepath", "pyx/font/t1file.py:_T1callothersubr.updatepath", "pyx/font/t1file.py:_T1seac.updatepath", "pyx/font/t1file.py:_T1div.updatepath"]}
{"id": "C92", "title": "A MetaPost-like path draws one segment per link", "statement": "metapost.path draws, for every link given between two knots (and for the link behind the last knot, back to the first), exactly one segment from knot to knot in the order given: a straight line for line(), a Bezier curve with the given control points for controlcurve, a Bezier curve for tensioncurve; joining equal knots, searching breakpoints and walking round the path neither lose, repeat nor overwrite a segment, and a closed path of curves ends with closepath at its first point.", "quantifier": "for all lists of knots and links of any length, all positions, curls, angles, tensions and control points, every epsilon and every choice of control points within a run for which the path can be made", "why_tests_cant": "The walk over linked, mutable knots depends on where breakpoints, equal knots, lines and cycles are; tests draw a dozen paths and compare pictures.", "anchors": ["pyx/metapost/path.py:path.__init__", "pyx/metapost/path.py:line.set_knots", "pyx/metapost/path.py:controlcurve_pt.set_knots", "pyx/metapost/path.py:tensioncurve.set_knots", "pyx/metapost/mp_path.py:mp_make_choices"]}
{"id": "C93", "title": "A line with keepangles continues the curves next to it", "statement": "metapost.path: a curve before line(keepangles=True) arrives at the first knot of the line, and a curve behind it leaves the second knot, in the direction of the line, whatever directions the knots had before.", "quantifier": "for all paths, open or closed, with any other knots and links, all positions (neighbours not closer than epsilon) and tensions, for which the path can be made and whose last link is not a line", "why_tests_cant": "The angle is stored in knots that other links change before and after; which run a knot belongs to depends on the whole path. Tests draw two such paths.", "anchors": ["pyx/metapost/path.py:line.set_knots", "pyx/metapost/path.py:path.__init__", "pyx/metapost/mp_path.py:mp_make_choices", "pyx/metapost/mp_path.py:mp_solve_choices"]}
{"id": "C94", "title": "EPS bounding boxes are read from the file's comments", "statement": "The bounding box of an included EPS file is the one its structuring comments state: the four numbers of the first BoundingBox comment of the header, or those of the trailer if the header defers them with (atend), whatever mixture of line ends (CR, LF, CRLF) the file uses and however long its lines are.", "quantifier": "for all file contents, all mixtures of line ends, all header comments before the bounding box, all white space and all sizes of the parts in which the file is read", "why_tests_cant": "The reader works on a buffer filled in parts; whether a CR LF pair is split by a part depends on the position of the line end, and the space of files is unbounded.", "anchors": ["pyx/epsfile.py:linefilereader.readline", "pyx/epsfile.py:linefilereader.read", "pyx/epsfile.py:_readbbox"]}
{"id": "C95", "title": "EPS files are placed with the asked size and alignment", "statement": "An EPS file inserted with width, height or scale and an alignment fills exactly the box of that size whose left/centre/right and bottom/centre/top is at the given position; with one of width and height the aspect ratio is kept; every point keeps its relative position, and the PostScript clip is exactly this box.", "quantifier": "for all bounding boxes, positions, sizes, positive factors and alignments", "why_tests_cant": "Sizes, boxes and positions are continuous parameters and the cases of width, height, scale and alignment multiply.", "anchors": ["pyx/epsfile.py:epsfile.__init__", "pyx/epsfile.py:epsfile.bbox", "pyx/epsfile.py:epsfile.processPS"]}
{"id": "C96", "title": "Begin and end of a path", "statement": "atend and atbegin of a path (converted to a normpath) give the current point a PostScript interpreter has after the path, and the first point of the path; pieces shorter than epsilon, closed subpaths and curves make no difference.", "quantifier": "for all sequences of path items (absolute, relative, curves, arcs, closepath) and all epsilon > 0", "why_tests_cant": "Short pieces are skipped and remembered across items, so that the position after any sequence of items depends on the whole history.", "anchors": ["pyx/path.py:path.atend_pt", "pyx/path.py:path.atbegin_pt", "pyx/normpath.py:normpath.atend_pt", "pyx/normpath.py:normsubpath.atend_pt"]}
{"id": "C97", "title": "SVG path data is drawn as SVG says", "statement": "A path element of a parsed SVG file becomes a PyX path which draws exactly the segments the SVG standard gives for its commands: absolute and relative, repeated argument groups, smooth cubic and quadratic continuations, closepath.", "quantifier": "for all sequences of commands and numbers", "why_tests_cant": "Each command depends on the previous one (current point, reflected control point, start of subpath), so pairs and chains of commands multiply.", "anchors": ["pyx/svgfile.py:svgHandler.toPath"]}
{"id": "C98", "title": "SVG numbers and commands are read as written", "statement": "The numbers of path data are the ones written, whatever signs, decimal points and exponents they have and whether they are separated by white space, commas, or nothing where the next number starts by itself; every command gets exactly the numbers up to the next one.", "quantifier": "for all numbers, separators and sequences of commands", "why_tests_cant": "The grammar allows numbers to touch; the set of texts is infinite and the regular expressions backtrack.", "anchors": ["pyx/svgfile.py:_svgFloatPattern", "pyx/svgfile.py:_svgPathPattern", "pyx/svgfile.py:svgBaseHandler.toFloat", "pyx/svgfile.py:svgBaseHandler.toFloats"]}
{"id": "C99", "title": "SVG transformations compose in the order given", "statement": "The transform attribute of a parsed SVG element maps every point like the composition of the listed matrices, translations, scalings, rotations and skews, the last one applied first.", "quantifier": "for all lists of transformations, all numbers and all points", "why_tests_cant": "Order and transposition of matrices only show up for lists of non-commuting maps with continuous parameters.", "anchors": ["pyx/svgfile.py:svgHandler.toTrafo", "pyx/trafo.py:trafo_pt"]}
{"id": "C100", "title": "SVG files are placed with the asked size", "statement": "An included SVG file shows its viewBox in its viewport as the SVG standard says (upright, whole, centred), has its lower left corner at the position given, the width, height or ratio given, keeps its shape otherwise, is clipped to its border, and shows every point at the same place whether it is parsed or passed through.", "quantifier": "for all viewBoxes, positions, sizes, ratios and points", "why_tests_cant": "All parameters are continuous, and a wrong clip or stretched picture is only seen for particular combinations of them.", "anchors": ["pyx/svgfile.py:svgHandler.startElementNS", "pyx/svgfile.py:svgBboxHandler", "pyx/svgfile.py:svgfile_pt.__init__"]}
{"id": "C101", "title": "SVG arcs join their end points as SVG says", "statement": "An elliptical arc of SVG path data begins and ends at the given points, lies on an ellipse of the given radii and rotation (enlarged just enough if they are too small), runs in the direction of the sweep flag, and is longer than half the ellipse iff the large-arc flag is set.", "quantifier": "for all pairs of points, radii, rotations and flags", "why_tests_cant": "Eight real parameters and two flags; the angles pass through an inverse tangent with branch cuts.", "anchors": ["pyx/svgfile.py:endpointarc"]}
{"id": "C102", "title": "SVG shapes are drawn with the paint and transformations around them", "statement": "Of an SVG file exactly the visible shapes are drawn, in document order, each with the transformations of all elements around it and with the fill and stroke of the nearest element that states one.", "quantifier": "for all trees of groups and shapes", "why_tests_cant": "The set of trees is infinite and the handler keeps its state in a stack while elements begin and end.", "anchors": ["pyx/svgfile.py:svgHandler.startElementNS", "pyx/svgfile.py:svgHandler.endElementNS", "pyx/svgfile.py:svgHandler.toColor"]}
{"id": "C103", "title": "The line of a graph is the part of the data's polygon within the graph", "statement": "For the data points of a line style, with positions in graph coordinates (or not available), the pieces of the path drawn consist, one after the other in order of the data, of exactly the parts within the unit box of the straight lines between neighbouring available points; nothing is drawn outside, nothing within is left out, no piece has fewer than two points, and the path is not interrupted at a data point within the graph whose neighbours are available.", "quantifier": "all numbers of dimensions, all lists of points (available or not), all positions of which no coordinate is outside by less than the tolerances, all maps from graph to canvas coordinates", "why_tests_cant": "The cases (inside/outside, both ends outside, cutting several edges in any dimension, missing points) multiply; tests show a few plots and are compared by eye.", "anchors": ["pyx/graph/style.py:_line.addpoint", "pyx/graph/style.py:_line.addpointstopath", "pyx/graph/style.py:_line.donepointstopath", "pyx/graph/style.py:pos.drawpoint"]}
{"id": "C104", "title": "Error bars are cut at the boundary of the graph", "statement": "For a data point and a dimension with at least one end of the range given, the error bar stroked is exactly the part within the graph of the line from the lower to the upper end (a missing end being replaced by the position itself); caps for all other coordinates are drawn exactly at those ends which are given and lie within the graph; nothing is drawn if another coordinate is outside or missing, or if no range is given.", "quantifier": "all numbers of dimensions, all positions and ranges (each end given or missing), all tolerances", "why_tests_cant": "The combinations of missing and cut ends in every dimension are many; the tests only draw a few plots.", "anchors": ["pyx/graph/style.py:errorbar.drawpoint", "pyx/graph/style.py:range.drawpoint"]}
{"id": "C105", "title": "A histogram draws the outline of its bins, cut at the boundary of the graph", "statement": "The path of a histogram draws, in order, exactly the parts within the graph of the outline of its bins: tops, edges shared by neighbours (with steps from value to value, otherwise covering both), and edges to the base value at gaps and ends. The fillable variants draw the outline moved into the graph: with steps cut bins are closed along the boundary, without steps a rectangle is drawn except for its single side which is cut. Automatic bins lie around the positions and are neighbours; unequal steps are an error.", "quantifier": "all lists of bins (or missing values), base values within the graph, tolerances; positions and values not outside by less than the tolerance, neighbours exactly adjacent or apart", "why_tests_cant": "The drawn lines depend on a pen state with many cases (gaps, cuts, signs, missing values) whose sequences are unbounded; tests compare few pictures by eye.", "anchors": ["pyx/graph/style.py:histogram.drawvalue", "pyx/graph/style.py:histogram.vposline", "pyx/graph/style.py:histogram.vvalueline", "pyx/graph/style.py:histogram.vmoveto", "pyx/graph/style.py:histogram.drawpoint"]}
{"id": "C106", "title": "Three-dimensional graphs are projected correctly", "statement": "In graphxyz the central projector maps each point in front of the eye to the place where the line from the eye through the point meets the picture plane, and the parallel projector to its components along the picture axes. Straight lines are mapped onto the straight lines drawn for them. vangle is positive exactly if the projected triangle is in clockwise order, the pXYshow flags are set exactly if the face of the box is seen from outside, the first x-axis and y-axis are at the side of the viewer, the twelve axes are on twelve different edges, an axis is hidden exactly if no face it belongs to is visible, zindex orders points with the same image from near to far, and ticks point from the axis across the box.", "quantifier": "for all distances, angles, scales, and all points of space in front of the eye", "why_tests_cant": "the claims concern arbitrary viewing angles and points; tests compare a few pictures by eye", "anchors": ["pyx/graph/graph.py:graphxyz.central", "pyx/graph/graph.py:graphxyz.parallel", "pyx/graph/graph.py:graphxyz.vpos_pt", "pyx/graph/graph.py:graphxyz.vangle", "pyx/graph/graph.py:graphxyz.doaxispositioner", "pyx/graph/graph.py:graphxyz.vcap_pt"]}
{"id": "C107", "title": "Bars show the part of their range inside the graph and stack without gaps", "statement": "The style bar fills, for each bar whose coordinates are available, exactly the part of the rectangle between its range ends that is inside the graph, and nothing if there is none; in 3D graphs exactly those faces of the box are drawn that are seen from outside. A stacked bar starts where the bar below ends and ends at its own value, added to the values below with addontop; the position is marked valid exactly if it is inside the graph; subvalues are appended behind the components of a nested bar name; the key shows all bars of a stack side by side filling its width.", "quantifier": "for all ranges, values, conversions, numbers of stacked values, and viewing directions", "why_tests_cant": "the ranges may be reversed, missing or partially outside in any combination and the number of stacked values is arbitrary", "anchors": ["pyx/graph/style.py:barpos", "pyx/graph/style.py:stackedbarpos", "pyx/graph/style.py:bar"]}
{"id": "C108", "title": "Two-dimensional graphs put points, axes, grid lines and keys where they belong", "statement": "In a graphxy, flipped or not: the axes x/x2 and y/y2 lie at opposite sides of the graph, and a tick for a value is the boundary point of the graph at this value. Axis number n+2 is axis number n moved outwards by its extent plus axesdist, and the ticks of every axis point towards the points of the graph at their value. The grid line of an axis value joins the two boundary points with this value. An axis moved with xaxisat/yaxisat goes through the points at that value. Geodesics end at the positions of their points, caps of error bars are centred, have the length asked for and the direction of their coordinate. A missing width or height follows from the ratio. The key graph of a density lies right of all axes. A key has the requested distance at pos 0 and 1, is centred at 1/2, stays inside when it fits, and shows all items in order in at most the number of columns asked for, separated by columndist.", "quantifier": "All graphs (position, size, flipped), all sets of axes and their extents, all values; all key sizes, positions and distances; all lists of key items and column numbers.", "why_tests_cant": "The placement depends on arbitrary many axes with arbitrary extents and on flipping; tests look at a few images.", "anchors": ["pyx/graph/graph.py: graphxy.vpos_pt, vgeodesic, vcap_pt, xvgridpath, yvgridpath, doaxispositioner, axisatv, autokeygraphtrafo, dokey", "pyx/graph/axis/positioner.py: lineaxispos_pt", "pyx/graph/key.py: key.paint"]}
{"id": "C109", "title": "Plot items give their styles all the data they need, points in order, and their own selection", "statement": "The styles of a plot item are the given styles in order, preceded by default providers, such that every variable a style needs is provided by an earlier style (so that for every point the provider has been called before); nothing is added when nothing is missing; the search ends when needs of default providers form no cycle, in particular for the providers registered by PyX. The points passed to styles are the rows of the columns in order (as many as the shortest column has), with None for used columns without data, an empty point between static and dynamic data, and no value carried over. Each plot item is selected with its number among the plot items having the same styles and with their total.", "quantifier": "All registries and style lists, all columns and numbers of points, all lists of plot items.", "why_tests_cant": "The iterative completion depends on arbitrary combinations of styles and registrations by users; tests try a few styles.", "anchors": ["pyx/graph/graph.py: plotitem.__init__, plotitem.draw, registerdefaultprovider, graph.dostyles", "pyx/graph/style.py: registerdefaultprovider calls"]}
{"id": "C110", "title": "A graph does everything once and in the right order, however its methods are called", "statement": "For every sequence of plot, doranges, doaxiscreate, dolayout, dobackground, doaxes, dostyles, doplotitem, doplot, dokeyitem, dokey, bbox and output calls: nothing is done twice (axis adjustment, axis creation, selection, drawing, key entries); static data adjust axes before dynamic data are made, dynamic data adjust after, no axis is adjusted after an axis has been placed; an axis is created after being placed and after the axis it depends on; an item is drawn after all axes, the background and its selection; output contains background, all axes, all plot items and the key exactly once; plot fails once styles are selected; the key contains all items with a title.", "quantifier": "All sequences of calls, all numbers of plot items, all sets of axes.", "why_tests_cant": "Correctness depends on the order of arbitrary many calls by the user; tests use few orders.", "anchors": ["pyx/graph/graph.py: graph.did, plot, doranges, doaxiscreate, dostyles, doplotitem, doplot, dokeyitem, finish, bbox, processPS, processPDF; graphxy.doaxispositioner, dolayout, dobackground, doaxes, dokey"]}
{"id": "C111", "title": "Columns of the data go to the axes they are named after", "statement": "For any column names of the data, axis names of a graph and usenames: the style pos is refused exactly if a graph dimension has several axes with a column, and otherwise the position in each dimension is the value in the column of the axis of that dimension, converted by that axis; dimensions without a column are reported as missing and left alone. The style range is refused exactly if an end of a range is defined twice, a difference has no value, or a dimension has several axes with ranges; otherwise the two ends in each dimension are those given by the columns ...min, ...max, d...min, d...max and d... of its axis, converted by this axis, ends without columns are reported as missing, and exactly the columns of axes with ranges are used. An axis is adjusted exactly once to the minima, the maxima and the values minus and plus the differences, whatever the order of the columns.", "quantifier": "all column names (distinct), axis names, usenames, numbers of dimensions and axes, conversions, data and orders of columns", "why_tests_cant": "Positions of columns among dimensions with missing ones and combinations of range columns are unbounded; tests use a few names.", "anchors": ["pyx/graph/style.py: pos.columnnames", "pyx/graph/style.py: pos.initdrawpoints", "pyx/graph/style.py: pos.drawpoint", "pyx/graph/style.py: range.columnnames", "pyx/graph/style.py: range.adjustaxis", "pyx/graph/style.py: range.drawpoint"]}
{"id": "C112", "title": "Data on a grid are collected, connected and put into bitmaps where they belong", "statement": "For any points with two grid coordinates: the values of the grid are coordinates of points, more than epsilon apart, every coordinate is within epsilon of the value it is put at, and the data at a place of the grid are those of the last available point there, the same in both dictionaries; if all positions are available, the color at a place is that of the last point there. The style grid draws, for each value of the one coordinate, exactly the parts within the graph of the lines between data at neighbouring values of the other coordinate. The style density accepts values exactly if there are two or more which are equidistant up to epsilon; its bitmap has the length its size requires, each pixel has the color of the data at its place or is transparent, and if positions are proportional the area of each pixel is that around its data up to the middle of neighbours.", "quantifier": "all points, orders, tolerances, missing points, color functions, grid sizes, affine positions", "why_tests_cant": "Tolerances join coordinates depending on the order of points, and bitmaps are placed by three corners; tests compare a few pictures.", "anchors": ["pyx/graph/style.py: gridpos.drawpoint", "pyx/graph/style.py: grid.donedrawpoints", "pyx/graph/style.py: density.drawpoint", "pyx/graph/style.py: density.donedrawpoints", "pyx/graph/style.py: surface.drawpoint"]}
{"id": "C113", "title": "Surfaces are drawn from the back to the front", "statement": "In a three-dimensional graph the elements of a surface (triangles and strips of grid lines) are listed such that no inner point of an element hides a point of an element of a cell drawn later, where a point hides another if it has the same place in the picture and a smaller zindex: for every parallel projection, and for central projections whose eye is beyond the graph in both grid coordinates. The four triangles of each cell are in such an order, too, if the comparison of the two directions for the whole graph agrees with that for the cell. A triangle is declared to be seen from the back exactly if the viewer is below its plane, whatever the order of drawing.", "quantifier": "all projections, scales, grid values, data (with missing and invalid points), widths of grid lines, pairs of points", "why_tests_cant": "Hidden points depend on continuous angles and data; tests show a few surfaces from the default angle.", "anchors": ["pyx/graph/style.py: surface.donedrawpoints", "pyx/graph/style.py: surface.midvalue", "pyx/graph/graph.py: graphxyz.vzindex", "pyx/graph/graph.py: graphxyz.vangle", "pyx/graph/graph.py: graphxyz.central", "pyx/graph/graph.py: graphxyz.parallel"]}
{"id": "C114", "title": "Painted axes: ticks, labels and titles are where they should be and the extent covers them", "statement": "Painting an axis draws a tick for every tick with attributes and a length (from the axis point along the tick direction by the inner length to the outer length at the other side), a grid line for every tick with grid attributes, a label for every labelled tick with its text at least the label distance away from the axis, the base line, and at most one title. For a straight axis everything drawn is within the extent of the axis canvas, the extent is attained, and the title is beyond everything else by its distance; axes of two-dimensional graphs are straight. Names of bar axes are beyond everything of their subaxes. The break lines of split axes have the length, distance and angle asked for and are within the extent reserved for them.", "quantifier": "all painters (lengths, attributes selected by levels, distances, equalizing), positioners, ticks, texts with any convex boxes around their center, titles, subaxes and canvases painted on", "why_tests_cant": "Positions follow from boxes of arbitrary texts and the accumulated extent; tests compare whole pictures by eye.", "anchors": ["pyx/graph/axis/painter.py: regular.paint", "pyx/graph/axis/painter.py: _title.paint", "pyx/graph/axis/painter.py: bar.paint", "pyx/graph/axis/painter.py: split.paint", "pyx/graph/axis/painter.py: axiscanvas"]}
{"id": "C115", "title": "Copies with changed parameters equal objects made with all arguments at once", "statement": "Calling an axis, painter, parter, rater, texter, decorator or deformer with keyword arguments gives a new object of the same class which is equal to the object made by the constructor from the original arguments and the new ones together, the new ones taking precedence; arguments for parts (painter_..., texter_...) are passed on to the parts. Parameters not mentioned keep their values, and the original is not changed.", "quantifier": "all classes with such a call, all original and new arguments (including arguments for parts of parts), all values of parameters and parts", "why_tests_cant": "The combinations of classes, parameters and nested arguments are unbounded, and a forgotten parameter shows only if it was set before to something other than its default.", "anchors": ["pyx/utils.py: merge_members_kwargs", "pyx/utils.py: kwsplit", "pyx/graph/axis/axis.py: linear.__call__", "pyx/graph/axis/axis.py: bar.__call__", "pyx/graph/axis/painter.py: regular.__call__", "pyx/graph/axis/parter.py: autolinear.__call__", "pyx/graph/axis/rater.py: rater.__call__", "pyx/graph/axis/texter.py: default.__call__", "pyx/deco.py: arrow.__call__", "pyx/deformer.py: cycloid.__call__", "pyx/pattern.py: pattern.__call__"]}
{"id": "C116", "title": "The picture of an axis agrees with the axis", "statement": "When an axis is created, the ticks it has afterwards are painted on its canvas at the positions which the axis gives to their values (for the range the axis has afterwards), with labels for all ticks with a label level; a tick found by the parter at x is at x times the divisor in units of the data and is labelled as x; labels given by the user are kept; a free end of the range is moved to the outermost tick, a fixed one is not changed. Out of several partitions without common ticks the one with the least sum of the rate of its ticks and the rate of its layout is chosen. Creation ends, whichever partitions are tried.", "quantifier": "all axes (fixed or free ends, divisors, fallback ranges), all lists of partitions with all ratings of ticks and layouts, all texters and painters", "why_tests_cant": "Several partitions are tried and laid out one after the other, changing tick objects in place; which one is chosen depends on ratings of all layouts.", "anchors": ["pyx/graph/axis/axis.py: _regularaxis._create", "pyx/graph/axis/axis.py: _regularaxis.adjustaxis", "pyx/graph/axis/tick.py: rational.__imul__", "pyx/graph/axis/tick.py: mergeticklists"]}
{"id": "C117", "title": "Linked axes show one common range", "statement": "Axes linked to each other have one range: it is made from the columns given to any of them, independent of the order and of which axis they were given to; all of them are painted for this range, and after creation they convert values in the same way at any time. A graph takes the axes given by the user as they are, links the second axis of a direction to the first (or the first to the second), and never links two axes to each other.", "quantifier": "all networks of linked axes (also between graphs), all sequences of adjustments and creations, all axis types, all combinations of axis arguments of a graph", "why_tests_cant": "Adjustments and creations of axes in several graphs can be interleaved in arbitrarily many ways; tests use one graph and one order.", "anchors": ["pyx/graph/axis/axis.py: anchoredaxis", "pyx/graph/axis/axis.py: linkedaxis", "pyx/graph/graph.py: graphxy.__init__"]}
{"id": "C118", "title": "The position at a given arc length is found up to the precision", "statement": "For an arc length between 0 and the one of a path, the parameter returned by arclentoparam lies on the path, and the length of the path up to this position differs from the given arc length by less than twice the precision for each path item up to there; the arc length 0 is the begin, the total arc length is the end, and larger arc lengths lead to larger parameters.", "quantifier": "all sub-paths of lines and Bezier curves, all arc lengths between 0 and the one of the sub-path, all positive precisions", "why_tests_cant": "The error bound concerns the true length of a curve, which has no closed form and which the tests do not know; the recursion depth and the root chosen depend on all coordinates.", "anchors": ["pyx/normpath.py: normcurve_pt._arclentoparam_pt", "pyx/normpath.py: normcurve_pt._split", "pyx/normpath.py: _leftnormline_pt.subparamtoparam", "pyx/normpath.py: normsubpath._arclentoparam_pt", "pyx/mathutils.py: realpolyroots"]}
{"id": "C119", "title": "The arc length at a given parameter is found up to the precision", "statement": "For parameters between 0 and 1 of a curve, the arc lengths returned by paramtoarclen are lower bounds of the length of the curve up to these parameters, off by less than twice the precision for each parameter given up to there, and the same holds for the total arc length.", "quantifier": "all Bezier curves, all lists of parameters, all positive precisions", "why_tests_cant": "The true length of a curve has no closed form; tests do not use unordered parameters.", "anchors": ["pyx/normpath.py: normcurve_pt._paramtoarclen_pt", "pyx/normpath.py: normcurve_pt.segments", "pyx/normpath.py: normcurve_pt.arclen_pt"]}
{"id": "C120", "title": "The SVG file of a canvas shows the picture of the canvas", "statement": "A viewer of the SVG file written for a canvas with nested canvases, paths, texts, transformations, clippings, styles and transparencies draws the marks of the picture of the canvas in their order, each at its place (upside down as the y axis of the file), with its style, clipped by the clip paths of all canvases around it; every group is closed; the viewBox contains everything which can be seen.", "quantifier": "all trees of canvases, decorated paths and texts, all styles, transformations and clip paths, with and without text_as_path", "why_tests_cant": "The picture depends on the inheritance of attributes through arbitrarily nested groups and on contexts copied and changed on the way; tests look at a few files by eye.", "anchors": ["pyx/canvas.py: canvas.processSVG", "pyx/deco.py: decoratedpath.processSVG", "pyx/font/font.py: T1text_pt.processSVG", "pyx/style.py: processSVGattrs", "pyx/color.py: transparency.processSVGattrs", "pyx/svgwriter.py: SVGwriter", "pyx/svgwriter.py: context"]}
{"id": "C121", "title": "Arrows sit on their paths", "statement": "The outline of an arrowhead is one closed loop; deco.earrow has its tip exactly at the end of the path and deco.barrow exactly at the begin; for positions between 0 and 1 head and constriction point stay on the path; no point of the head is farther from the tip than the size (or the length up to the constriction point); on straight paths the head has the opening angle and size asked for; the stroke is cut such that it ends at the back of the head; an arrow at the begin is the mirror image of an arrow at the end of the reversed path; with arrows at both ends exactly both heads are left out of the stroke; calling an arrow to change its size keeps its attributes.", "quantifier": "all paths (given by arc length), all positions, sizes, opening angles and constrictions", "why_tests_cant": "The geometry is asked for all shapes of paths and all settings; tests compare a few pictures by eye.", "anchors": ["pyx/deco.py: _arrowhead", "pyx/deco.py: arrow.__init__", "pyx/deco.py: arrow.__call__", "pyx/deco.py: arrow.decorate"]}
{"id": "C122", "title": "Texts beside and along paths, and hatchings, are where they should be", "statement": "deco.text puts the text such that, measured from the chosen position of the path in the direction asked for (absolute, or relative to the tangent by relangle), the whole box of the text is at least textdist away and touches that distance; deco.curvedtext puts every item with the middle of its base line exactly on the path, at its arc length in the straight text, turned to the tangent and not distorted, so on a straight path the ordinary text results, and with exclude exactly the parts below the items enlarged by exclude are left out of the stroke; the lines of deco.linehatched cover the bounding box of the path without gaps, at the distance asked for, and a hatching replaces fillings and former hatchings.", "quantifier": "all paths with tangents (given by arc length), all positions, angles, distances, boxes of texts and numbers of items; all bounding boxes, distances and angles of hatchings", "why_tests_cant": "The geometry is asked for all shapes of paths and all texts; tests compare a few pictures by eye.", "anchors": ["pyx/deco.py: text.decorate", "pyx/deco.py: curvedtext.decorate", "pyx/deco.py: linehatched._decocanvas", "pyx/deco.py: linehatched.merge"]}
{"id": "C123", "title": "deformer.cornersmoothed removes the corners of paths and nothing else", "statement": "cornersmoothed(radius, softness) replaces every corner of a path by curves such that the tangent direction is continuous along the whole result, at the joint of closed paths too; for a corner between straight lines the two replacing curves lie inside the triangle of the corner point and the two points at the distance radius, begin and end on the lines with vanishing curvature and meet in the same tangent direction; between curved parts the replacing curve has the end points, tangents and curvatures of the parts; an open path keeps its end points.", "quantifier": "all polygons (open with at least two lines, closed with any number) without zero-length lines and U-turns, all radii and softnesses in (0,1]; for parts with curves: all end geometries with non-parallel tangents, all positive solutions of the coupled equations", "why_tests_cant": "Continuity of the tangent is asked for every corner of every path; tests draw a few paths and look at them.", "anchors": ["pyx/deformer.py: cornersmoothed.deformsubpath", "pyx/deformer.py: curvescontrols_from_endlines_pt", "pyx/deformer.py: controldists_from_endgeometry_pt"]}
{"id": "C124", "title": "deformer.cycloid wraps a spring around a path", "statement": "cycloid replaces a path by halfloops*curvesperhloop curves which lead smoothly through the points of a spring in space of the given radius, turned by turnangle and seen from the side, placed beside the base path; on a straight base path the curves touch the spring in all these points; the spring stays beside the part of the path between skipfirst and skiplast, not farther away than the radius, and skipfirst and skiplast are the lengths of the undeformed ends; sign -1 gives the mirror image; turnangle 90 gives circles; a path too short is left unchanged.", "quantifier": "all radii, numbers of half loops and curves, skips, turn angles and signs; all base paths given by points, tangents and curvatures at arc lengths", "why_tests_cant": "The shape is asked for all parameters and base paths; tests draw a few springs and look at them.", "anchors": ["pyx/deformer.py: cycloid.deformsubpath"]}
{"id": "C125", "title": "deformer.linesmoothed draws a smooth curve through the corners of a path", "statement": "linesmoothed replaces a path by curves which begin and end in exactly the points where the items of the path begin and end, one curve per item in the same order; successive curves meet in the same tangent direction with positive speed, for closed paths also where the path closes, and closed paths stay closed; without lcurl or rcurl an open path keeps the directions of the original path at its ends; atleast makes the tension a lower bound only.", "quantifier": "all connected paths of lines and curves, open or closed, all tensions, curls and flags, whenever the curves can be computed", "why_tests_cant": "Smoothness at all knots has to hold for all paths and tensions; tests draw a few paths and look at them.", "anchors": ["pyx/deformer.py: linesmoothed", "pyx/metapost/path.py: path, tensioncurve, smoothknot, beginknot, endknot"]}
{"id": "C126", "title": "deformer.parallel keeps its distance along paths of straight lines", "statement": "Without the intersection step, parallel of a path of straight lines is a path without gaps, closed if the path is closed, which contains for each line of the path the line moved by the distance to the left (negative distances: to the right). Everything else of it goes around the corners: each of its points is at the given distance from a point of the path (up to a relative error of 1/200000 of the arcs and, where the path is nearly straight, up to epsilon^2/2 in the squared distance), and on the outer side of a corner the corner is the nearest point of both lines. The parallel outside of a convex polygon is nowhere nearer to the polygon than the distance. Sharp outer corners are the intersection of both parallels.", "quantifier": "all connected paths of lines with a direction, open or closed, all distances not below epsilon, all epsilon > 0, with and without sharp outer corners; all points of the result", "why_tests_cant": "The distance has to be kept at all points of all paths, in all directions of turns and for both signs of the distance; tests draw examples.", "anchors": ["pyx/deformer.py: parallel.deformsubpath, parallel.deformsubpathitem, parallel._path_around_corner, parallel._get_angles, intersection", "pyx/path.py: _arctobezierpath"]}
{"id": "C127", "title": "deformer.parallel of a curve follows the true parallel", "statement": "Without the intersection step, parallel of a curve consists of pieces in the order of the curve, each without gaps. Each item of a piece starts and ends on the true parallel (the point of the curve moved by the distance along its normal), and is either a line or a curve whose tangents at its ends are those of the original curve; at all parameters in checkdistanceparams such a curve has a point on the normal of the original curve whose distance differs from the given one by at most relerr*distance or epsilon. The curvature asked for at the ends is that of the true parallel. Pieces are left out only where the true parallel is turned over, that is where curvature*distance is larger than one; the search for the borders ends, finds nothing else, and finds a border wherever the sides at two neighbouring parameters differ.", "quantifier": "all curves with a direction everywhere, all distances, epsilon, relerr, checkdistanceparams in [0,1] and lookforcurvatures >= 3, all sets of solutions found by the polynomial solver, all (sound) intersection routines", "why_tests_cant": "The items are found by recursive subdivision whose depth depends on the curve; tests draw a few curves and look at the picture.", "anchors": ["pyx/deformer.py: parallel.deformsubpathitem, parallel.deformnicecurve, parallel._distchecked, parallel._distcrossingparameters, _length_pt", "pyx/normpath.py: normcurve_pt.segments, normcurve_pt.curvature_pt"]}
{"id": "C128", "title": "Columns of graph keys: titles and symbols", "statement": "In a column of a graph key the anchors of the titles are below each other at the same horizontal position and at equal distances, which are the largest height of a title and dist together. No title reaches into the symbols and symbolspace, and at least one title begins exactly there. The middle of each symbol is at the height of the anchor of its own title. If the titles have the same depth or the same height, neighbours are at least dist apart. Between the columns there is columndist. The letters of pos may be given in either order; hpos and vpos are accepted only together and with pos=None.", "quantifier": "all settings of keys, all non-empty lists of titles of any extents (not degenerate), all positions", "why_tests_cant": "The layout depends on the extents of all titles together; tests draw a few keys with titles of one line and look at them.", "anchors": ["pyx/graph/key.py: key.__init__, key.paintcolumn, key.paint", "pyx/box.py: tile_pt, linealignequal_pt", "pyx/text.py: textbox_pt.__init__"]}
{"id": "C129", "title": "Parsers of TeX output remove what they should and nothing else", "statement": "remove_string removes the first occurrence only; remove_pattern removes exactly the match (plus newlines inside of it, never those before or after it); remove_nested_brackets keeps the text outside of brackets and of the first level of brackets if the brackets are balanced (not counting those in a quoted string right after an opening bracket), and returns the string unchanged otherwise. texmessage.load leaves exactly the text outside of the brackets if each bracket names an existing file, and the whole message otherwise; load_def removes only names of existing .fd and .def files; pattern logs exactly what it removes; all of them return for every message. start accepts a message exactly if it has the greeting and the scrollmode test.", "quantifier": "all messages (strings), all sets of existing files, all regular expressions without empty matches", "why_tests_cant": "The parsers work on free text with nested brackets, quotes and lines broken at arbitrary places; the tests have five examples.", "anchors": ["pyx/text.py: remove_string, remove_pattern, remove_nested_brackets, texmessage.start, texmessage.load, texmessage.load_def, texmessage.load_graphics, texmessage.pattern"]}
{"id": "C130", "title": "Texts get the pages TeX made for them, and TeX errors are noticed", "statement": "A text is accepted only if TeX's answer contains the marker of this expression, the message of the box with the page number of this text and the message of the page, and the message parsers leave nothing but prompts, blanks, newlines and asterisks at line ends; so an error message raises TexResultError unless a parser removes it. The extents are those reported by TeX, in PostScript points. Markers and pages are numbered 1, 2, ... over the life of an engine, and the marker of one expression is not found in that of another. States never go back: preambles after the first text raise an AssertionError, texts after the end raise TexDoneError, and nothing changes after the end. If no text failed, each text shows the page TeX made for it; with texipc a text is returned only with its own page. A MultiEngine starts TeX again when it was finished, and tells it the start, all preambles in their order and the text.", "quantifier": "all outputs of TeX and all message parsers; all sequences of calls of preamble, text, finish and of accesses to texts, with exceptions at any call, and every TeX process (its answers may depend on everything it was told)", "why_tests_cant": "The engine talks to an external program; the tests run a handful of texts with a working TeX. Failures in the middle of a session, page numbers, restarts and lost preambles depend on the sequence of calls.", "anchors": ["pyx/text.py: SingleEngine._execute, do_start, do_preamble, do_typeset, do_finish, preamble, text_pt, SingleTexEngine, SingleLatexEngine, MultiEngine, reset_for_tex_done, textextbox_pt.readdvipage, textextbox_pt.dvicanvas, PyXBoxPattern, dvi_pattern", "pyx/dvi/dvifile.py: DVIfile.readpage"]}
{"id": "C131", "title": "Texts in Type 1 fonts have their glyphs at the same places in all output formats", "statement": "Glyph k of a text is at the start of the text plus the advances of the glyphs before, k times the additional space and the kernings of the pairs before: in the path of the text, in PostScript, and in SVG exactly, in PDF up to k times size/1000 since the widths are truncated there (exactly for integer widths); the bounding box ends where the last glyph ends. Slanted texts are the same in PostScript and PDF. Ligatures replace consecutive glyphs by glyphs formed of them from the left to the right. All glyphs of a text are in one encoding with codes below 256; the codes of earlier texts never change, and the written encoding vector gives back the glyphs; the strings in the file are read as the codes. In SVG fonts different glyph names get different characters which never change.", "quantifier": "all texts, metrics, sizes, spaces, kernings and ligature tables; all sequences of texts sharing a font; all character codes below 256", "why_tests_cant": "The tests show a few words in one font; positions in viewers are not measured, and encodings which overflow 256 glyphs, unusual ligatures or fractional widths do not occur.", "anchors": ["pyx/font/font.py: T1text_pt.__init__, bbox, getencodingname, textpath, processPS, processPDF, processSVG, PDFfont.write, PDFencoding.getvector, PSreencodefont.output, SVGT1mapping, SVGT1file.merge", "pyx/font/afmfile.py: AFMfile.width_pt, resolveligatures, resolvekernings, writePDFfontinfo"]}
{"id": "C132", "title": "Text attributes align, shift and size texts as asked for, in whichever order they are given", "statement": "A text is aligned horizontally by the last halign or boxhalign which is not removed by a later attribute: its position divides the width of its box in the ratio h : 1-h; without one it starts at its position. With valign(v) the part v of its total height is above the base line. Shifts lower the text by the sum of the shifts, wherever they are in the list. A parbox has exactly the width asked for (in true units), and its base line is that of the first or last line, or half way between them. Math mode applies to the content exactly if asked for. Texts do not influence later texts. Sizes by index are the ones counted from the normal size. escapestring replaces each special character by a command of its own, so that TeX reads back exactly the string, and different strings stay different.", "quantifier": "all lists of text attributes in any order (with clears), all contents whose extents are any function of size and mode, all fonts, all widths, indices and strings", "why_tests_cant": "The attributes are combined into nested TeX macros; the tests show a few combinations as pictures, and the merging of the attributes makes the order of the macros differ from the order of the list.", "anchors": ["pyx/text.py: textattr, _localattr, boxhalign, flushhalign, halign, _mathmode, _phantom, parbox_pt, valign, vshift, _vshiftmathaxis, size, escapestring, SingleEngine.text_pt, textbox_pt", "pyx/attr.py: mergeattrs"]}
{"id": "C133", "title": "Texts of the UnicodeEngine show all their characters one after the other", "statement": "The pieces of a text follow each other without overlap; what is drawn for a piece is within its place. A text advances by the widths of its fragments plus, in math mode, the width of a minus sign for each hyphen; it shows exactly the characters of the string in their order (a missing dot becomes an x), with hyphens as bars centred at the math axis in math mode, in the size and height asked for. A stack is as wide as its widest text and the texts are aligned in it as asked for.", "quantifier": "all lists of texts and stacks, all scales, shifts and alignments from 0 to 1, all fonts with non-negative widths and a minus sign which fits in its place", "why_tests_cant": "No test covers the engine with more than a few strings; overlaps and lost characters depend on the font and the hyphens in the text.", "anchors": ["pyx/text.py: Text, StackedText, unicodetextbox_pt, UnicodeEngine.text_pt"]}
{"id": "C134", "title": "Symbols, impulses, texts, arrows, rectangles and colours show their data points", "statement": "Each point within the graph gets exactly one symbol, impulse, text or arrow at its position, in the order of the data; points outside get none. Symbols are centred at the point, are within the distance size of it, and all closed symbols have the same area size squared; crosses and plus signs have lines of equal length. An impulse runs from the value asked for (cut to the graph) to the point in the direction of the value only and is the part of the full impulse which is in the graph. An arrow has the length linelength*size and the direction of its angle, and the point divides it as arrowpos says. A rectangle shows the part of its ranges which is in the graph. The colour of a value is that of its position on the colour axis, cut to the axis, and the key shows at each position the colour of the values there.", "quantifier": "all data points (also missing ones), all graphs, sizes, angles, ranges, values, resolutions of the key of at least 2", "why_tests_cant": "The tests draw a few graphs whose rectangles are within the graph; areas of symbols, points at the boundary, ranges exceeding the graph on both sides, reversed axes and the colour at the end of a key are not looked at.", "anchors": ["pyx/graph/style.py: _crosssymbol, _plussymbol, _squaresymbol, _trianglesymbol, _circlesymbol, _diamondsymbol, symbol, impulses, text, arrow, rect, _keygraphstyle.color, gradient.donedrawpoints", "pyx/graph/graph.py: graphx.vpos_pt"]}
{"id": "C135", "title": "AFM files give the metrics which are written in them", "statement": "A font metrics file gives the metrics: its version, for each field of the header and of the writing direction the value of its last line, the glyphs in the order of their lines with the code, widths, vector, name, bounding box and ligatures of the line, for each name the last glyph of that name, and the kerning pairs, where two names stand for the last pair of these names. Track kerning is read if and only if there are as many lines as announced. Amount and kind of white space, empty lines, comments and unknown fields of the header do not matter, and numbers of glyphs or pairs announced need not be right.", "quantifier": "all fonts (versions, fields, glyphs, pairs, tracks), all ways to write them: any white space between words and around entries, any texts for numbers which Python reads as these numbers, comments and empty lines anywhere in the header and between pairs", "why_tests_cant": "The tests read a handful of fonts installed with TeX; comments in other places, several lines for one field or one name, second directions, composites and files cut off are never read.", "anchors": ["pyx/font/afmfile.py: AFMfile.parse, _processline_start, _processline_main, _processline_direction, _processline_charmetrics, _processline_kerndata, _processline_trackkern, _processline_kernpairs, _processline_composites"]}
{"id": "C136", "title": "PFM files give the metrics at the offsets of the format", "statement": "A PFM file is accepted if and only if it has the right version, type, device and tables, long enough and with matching numbers of rows. Then every field is the little endian number at the offset of the format, the widths are those of the characters from the first to the last one, and the kerning pairs and tracks are the rows of their tables. The width of a glyph whose character the font has is the one in the table; the width of a text is the sum. A text has all its glyphs in order and between two of them the kerning of the last pair of their characters, scaled to the size. The flags and numbers written to PDF files are those of the font.", "quantifier": "all files (any bytes), all encodings, all texts, sizes", "why_tests_cant": "There is no test which reads a PFM file.", "anchors": ["pyx/font/pfmfile.py: PFMfile.__init__, width_ds, width_pt, resolvekernings, writePDFfontinfo, ansiglyphs, _readNullString"]}
{"id": "C137", "title": "Encoding vectors are read as laid out, and stripped fonts keep the wanted part", "statement": "An encoding file is read if and only if it consists of the name, an opening bracket, 256 names with slashes, a closing bracket and def, with any whitespace and comments between them; the vector has these names in this order. The encoding of a Type 1 font is the standard one exactly if the font says so, and otherwise each code has the name of its last entry, whatever is in front of the entries and between them. The clear text of a stripped font has again an encoding: each code has the name it had if that glyph is wanted and none otherwise, also after whitespace has been unified.", "quantifier": "all texts: all names, orders of entries, whitespace, comments, sets of wanted glyphs", "why_tests_cant": "Tests read a few fonts and encoding files; a wrong token boundary shows up only in files with the respective layout, and a wrong entry in a stripped font is a wrong glyph in print.", "anchors": ["pyx/reader.py: PStokenizer.__init__, gettoken, getint", "pyx/dvi/encfile.py: ENCfile.__init__", "pyx/font/t1file.py: T1File._encoding, getstrippedfont, newlinepattern, uniqueidstrpattern"]}
{"id": "C138", "title": "The output of TeX is read completely and in time, in all interleavings", "statement": "While TeX is running, the main thread, the thread which reads the output of TeX, and TeX itself may be interleaved in any way, the pipes between them may be as small as one element and the answers of TeX as long as they like: there is never a deadlock and never an infinite execution; without a timeout, no call of expect fails, the thread does not raise an exception, and whenever wait has succeeded for an expression, read gives everything TeX has written up to the marker of this expression, in its order. At the end, everything TeX has written has been read exactly once, whether there have been timeouts or not. Waiting takes at most the configured time.", "quantifier": "all interleavings of the three, all answers of TeX, all numbers of expressions and chunks, all capacities of the pipes, all configured times", "why_tests_cant": "A test executes a few of the interleavings; races depend on the scheduler, and deadlocks on the sizes of pipes and of answers.", "anchors": ["pyx/text.py: MonitorOutput.expect, read, _wait, wait, done, run", "pyx/text.py: SingleEngine._execute"]}
{"id": "C139", "title": "Intersections of curves end, are close to both curves, and crossings of the replacing lines are not lost", "statement": "The intersection of two path items, lines or Bezier curves, always ends without an exception, unless an item is a curve which is just a point. All parameters in the result are within 0 and 1, and the points of the two items at them are at most epsilon apart, and seven times epsilon more for each item which is a curve. Wherever two of the lines by which the items are replaced cross (not almost parallel), there is a result next to the crossing; a curve which begins and ends on different sides of a line which it is beside has an intersection with it.", "quantifier": "all lines and curves with real coordinates, all epsilon > 0, all depths of the recursion", "why_tests_cant": "Curves have eight real parameters each; whether the recursion ends, and how far a point on the replacing line is from the curve, can not be seen from examples.", "anchors": ["pyx/normpath.py: normcurve_pt.intersect, normline_pt.intersect, normcurve_pt._split (intersect=True)", "pyx/normpath.py: _leftnormline_pt.subparamtoparam, _rightnormline_pt.subparamtoparam, _leftnormcurve_pt.subparamtoparam, _rightnormcurve_pt.subparamtoparam"]}
{"id": "C140", "title": "Intersections of paths: none is invented, none is lost but for close ones, and none is reported twice", "statement": "The intersection of two sub-paths returns two lists of the same length. Each pair of parameters in them is an intersection of two of the items, with the index of the item added, and the parameters of the first path are ascending. For open sub-paths no pair is reported twice (a crossing where two items meet is found in both), each intersection of items is reported or linked to a reported one by steps in which the points are closer than epsilon on both paths, and an intersection with no other one near is always reported. For open polylines there is no exception. The intersection of two paths is what is reported for the pairs of their sub-paths.", "quantifier": "all sub-paths, all epsilon > 0, all intersections of their items with parameters within 0 and 1", "why_tests_cant": "Which intersections are merged depends on the distances between all of them on both paths at once; merging wrongly is only seen for special positions as crossings at vertices.", "anchors": ["pyx/normpath.py: normsubpath.intersect, closepoints", "pyx/normpath.py: normpath.intersect", "pyx/normpath.py: normsubpath.segments, normsubpath.joined"]}
{"id": "C141", "title": "Rectangles, polylines and polygons of an SVG file are drawn as SVG says", "statement": "A rect element with radii is drawn as one closed loop whose points are exactly those of the outline of the rounded rectangle; a missing radius is the other one and a radius is at most half of the side. Without radii, or with a radius zero, the points are those of the edges of the rectangle; if all radii are below 1e-10, the edges are drawn, which differ from the outline by at most 1e-10; without width or height nothing is drawn. A polyline has one line for each two points which follow each other, and a polygon is a closed loop through all of its points; an odd last coordinate is dropped.", "quantifier": "all positions, sizes and radii (real numbers, radii not negative), all lists of coordinates", "why_tests_cant": "The outline is a set of points for each of five real parameters, and the case distinctions for missing, zero and large radii interact.", "anchors": ["pyx/svgfile.py: svgHandler.startElementNS (rect, polyline, polygon)", "pyx/path.py: rect_pt, circle_pt", "pyx/normpath.py: normpath.split, normpath.join"]}
{"id": "C142", "title": "Colors and line styles of an SVG file are read as SVG says", "statement": "Each of the 147 color keywords is the color of the SVG standard. rgb() with numbers up to 255 or percentages up to 100, with any white space, and #rrggbb and #rgb in upper or lower case are the colors with these parts; larger numbers are an exception. A length with a unit is the length in points. Each style attribute gives its style, none is lost and none is invented, and unknown words for the line cap are exceptions. A dash pattern is the list of lengths of the attribute.", "quantifier": "all digit strings, all white space, all attributes, all lists of lengths, all units", "why_tests_cant": "The texts are unbounded, and each of the notations could match a text of another one.", "anchors": ["pyx/svgfile.py: svgHandler.toColor, _svgColorAbsPattern, _svgColorRelPattern", "pyx/svgfile.py: svgHandler.startElementNS (floatAttr, pathAttrs)", "pyx/color.py: rgb, rgbfromhexstring", "pyx/style.py: dash"]}
{"id": "C143", "title": "Fill patterns paint what their parameters say", "statement": "A hatched pattern paints exactly the strips of the line width around all lines of its direction at multiples of its distance, and a crosshatched one those of both directions, in PostScript and in PDF, for all ends of lines. A pattern without steps repeats the bounding box of its content edge to edge. PostScript and PDF paint the same points for a pattern without a box of its own. A step zero is an exception. SVG paints the same pattern shifted. The named sizes are a factor of the square root of two apart. Calling a hatched pattern changes what is given and keeps the rest.", "quantifier": "all distances, angles, line widths, contents, boxes, points of the plane and lists of exclusive styles", "why_tests_cant": "The painted points are an infinite set made of infinitely many cells; whether lines of neighbouring cells meet is not seen from the text of the output.", "anchors": ["pyx/pattern.py: pattern.processPS, pattern.processPDF, pattern.processSVGattrs, pattern.__call__", "pyx/pattern.py: hatched, crosshatched", "pyx/pattern.py: PDFpattern.write, SVGpattern.output", "pyx/bbox.py: lowrestuple_pt, enlarge"]}
{"id": "C144", "title": "Fields of PDF forms are what was asked for", "statement": "The flags of a field are exactly the bits which the PDF reference gives to the flags asked for; an unknown flag is refused and defaults hold for the rest. The rectangle of a text or choice field is where the canvas puts it for all scalings, mirrorings and right angles; that of a button for shifts and scalings. Names and values are read back from the file. Exactly the radio button with the default value is on, its name is the value of the field, and names of buttons differ. The lines of a default text are written, vertically centred. A text field can be put on any page.", "quantifier": "all sets of flags, transformations, names, values, positions, default texts and sequences of canvases and fields on a page", "why_tests_cant": "The flags alone have two to the power of twenty values; whether a name spoils the file depends on any character, and whether a field can be put on a page depends on everything painted before.", "anchors": ["pyx/pdfextra.py: _pdfflags, flag, formfield.selectflags", "pyx/pdfextra.py: textfield, choicefield, checkbox, radiobuttons", "pyx/pdfextra.py: PDFtextfield, PDFdefaulttext, PDFbuttonlist, PDFcheckboxfield", "pyx/canvas.py: canvas.processPDF", "pyx/pdfwriter.py: context.__call__"]}
{"id": "C145", "title": "Output goes to the file it was asked for, and nowhere else", "statement": "Writing a document replaces exactly the file with the given name, with the suffix of the format added if it is missing; without a name the suffix of the script is replaced, and the script is never overwritten; `-` is standard output; an object is written to and left open. Everything else is refused without any change. writetofile selects the format by the suffix, which is never ambiguous. Keywords with page_ reach the page and those with write_ the writer, none is lost. writeGSfile derives name and device from each other. Names of paper formats are accepted in any case, each format being half of the next larger one.", "quantifier": "all names, scripts, contents of files, outputs of writers, keyword dictionaries and spellings of formats", "why_tests_cant": "A test writes some files with some names and sees neither the other files nor the names with strange endings.", "anchors": ["pyx/document.py: _outputstream, document.writeEPSfile, document.writetofile, _paperformatfromstring, paperformat", "pyx/canvas.py: _wrappedindocument, canvas.writeGSfile"]}
{"id": "C146", "title": "Ticks of an axis along a path are where the axis position says, and the base path runs between them", "statement": "For an axis along a path, the tick at graph coordinate v is on the path at v times its length from the begin, and its direction is normal to the path there. Positions grow along the path. The base path from v1 to v2 follows the path between these two ticks and has the part v2-v1 of its length; ends not given are those of the path. Methods for axis values agree with those for graph coordinates, and the shortcuts of a graph are the methods of its axes.", "quantifier": "all paths of one sub-path of lines of positive length, open and closed, all positions between 0 and 1, all conversions", "why_tests_cant": "A test uses some path and some positions; it does not see every corner of every path, nor each of the dozens of shortcut attributes.", "anchors": ["pyx/graph/axis/positioner.py: pathpositioner", "pyx/graph/axis/axis.py: anchoredaxis.tickpoint, anchoredaxis.vtickpoint", "pyx/graph/graph.py: graphxy.doaxispositioner, graphxyz.doaxispositioner"]}
{"id": "C147", "title": "Bars with changing attributes get the attributes of their number", "statement": "The style changebar fills exactly the bars of which something is inside of the graph, in the order of the values, with the same polygons as the style bar. Bar number k has the attributes selected for k out of the number of all values, also if values before it are missing or outside of the graph; with a cyclic list of attributes it is element k modulo the length. Several data instances and graphs which are not two-dimensional are refused.", "quantifier": "all lists of values, present or missing, inside or outside of the graph, all lists of fixed and changeable attributes", "why_tests_cant": "A test plots some values with the default attributes; the selection depends on the number of all values and on each missing one.", "anchors": ["pyx/graph/style.py: changebar, bar.drawpoint", "pyx/attr.py: selectattrs, changelist.select", "pyx/canvas.py: canvas.fill"]}
{"id": "C148", "title": "SVG files are well-formed and contain what was drawn", "statement": "Whatever elements, attributes and texts are drawn, the SVG file is well-formed XML: a header, one element svg with the namespace declarations and attributes, properly nested elements, and attribute values and characters escaped such that a reader gets back exactly what was given. The content is the resources and the page in this order; white space is only added where it has no meaning, never in texts. A prefix is declared whenever it is used. Writing fails only for unknown prefixes and for resources with links on pages without.", "quantifier": "all trees of elements with all names, attribute values and texts over all characters, all resources, all nesting depths", "why_tests_cant": "A test compares some files; it does not meet every combination of nesting, empty elements, quotes in values, texts with several parts and links in resources.", "anchors": ["pyx/svgwriter.py: SVGGenerator, SVGwriter, SVGregistry.output"]}
{"id": "C149", "title": "PostScript files have the structure their comments announce", "statement": "A PostScript file of a document is read, according to the structuring conventions, as a header with the number of pages, the paper formats used (each once), title and, if asked for, a bounding box containing those of all pages; then the prolog; then exactly the pages of the document in their order with names, numbers counted from one, paper formats and orientations, each executing what was drawn on it between save and restore and shown once. Documents, fonts and resources included in pages or prolog do not disturb this. An EPS file has one page, and the bounding box epsfile reads from it is the least box of integers around the page. Each resource is defined once, before everything which refers to it, and fonts contain the glyphs of all texts of all pages. The options of the writer are honoured, also with their old names.", "quantifier": "all documents: any number of pages with any contents, names, paper formats and boxes; any nesting of included documents; all sequences of registered resources with any merging; all options", "why_tests_cant": "A test reads a few files; it does not meet every content, every order of texts on pages, included files without final line end, titles with line ends or every option.", "anchors": ["pyx/pswriter.py: PSregistry, PSdefinition, _PSwriter, EPSwriter, PSwriter", "pyx/svgwriter.py: SVGregistry.add", "pyx/epsfile.py: epsfile.processPS, _readbbox", "pyx/font/font.py: PST1file, T1text_pt.processPS"]}
{"id": "C150", "title": "Time axes place moments in proportion to elapsed time", "statement": "On a time axis a moment is placed at the fraction of the axis which has elapsed since its beginning, to the microsecond: the beginning at 0, the end at 1, later moments further along, equal times at equal distances. An end which is not given is the first or last moment of the data, other things in the column being ignored; an end which is given stays. Merged ticks have the more important of both levels, and exactly the ticks with a label level and without a text get one, that of their moment. An axis given from a later to an earlier moment, or a reversed one, runs backwards.", "quantifier": "all ranges of moments, also long before the epoch; all columns of data; all lists of ticks; all directions", "why_tests_cant": "A test shows a few dates; it does not meet every normalised difference of dates (negative days), every order of data or every level.", "anchors": ["pyx/graph/axis/timeaxis.py: timeaxis, timetick, timetexter", "pyx/graph/axis/axis.py: _regularaxis"]}
{"id": "C151", "title": "Maps from CBD files show the coast lines in the file", "statement": "Reading a CBD file gives the lines of the ranks asked for, in their order, separated by gaps: each line is its start and the ends of its steps, in degrees, whether the steps are stored in two or in eight bytes. Lines across the date line are shown with positive longitudes, other lines where they are. What is remembered for one file and choice of ranks is never given for another.", "quantifier": "all files which contain the lines somewhere, in any layout the dictionary describes; all lines, steps of all sizes the format has; all ranks; all file names", "why_tests_cant": "A test reads one file; it does not meet every sign and size of a step, lines on the date line or file names with colons.", "anchors": ["pyx/graph/data.py: cbdfile"]}
{"id": "C152", "title": "A reader of a PDF file finds exactly the pages of the document", "statement": "Following the last lines of a PDF file to the cross-reference table, the trailer to the catalog and the catalog to the page tree, a reader finds the announced number of pages, which is that of the document, each page once and in its order, with the page tree as its parent, the size of its paper (or of its drawing if none is given), its crop box if asked for, its orientation and a content stream of exactly the announced length which is what was drawn, as it is or compressed. The resources of the page are exactly the names used on it, each leading to the object which got the name last. Every object registered is found at the place of its number. All documents can be written, and the options of the writers have their effect, also under their old names.", "quantifier": "all documents: any number of pages with any contents, resources and objects registered (fonts, images, annotations, fields) with any references; all sizes and orientations; all options", "why_tests_cant": "A test opens a few files; it does not meet every content (the word endstream in it), every set of resources, page numbers with more digits or empty pages.", "anchors": ["pyx/pdfwriter.py: PDFwriter, PDFcatalog, PDFpages, PDFpage, PDFcontent, PDFregistry", "pyx/svgwriter.py: SVGwriter"]}
{"id": "C153", "title": "Braces have the shape and place their parameters say", "statement": "deco.brace fills a closed outline whose cap is at the height totalheight above the point middlerelpos of the line between the end points, to the left of the direction from the first to the second one, and whose tips are at the end points (the middle of a tip is 5/8 of the thickness of the outer stroke away). The inner and outer strokes and the bars have the thicknesses asked for, measured across, and the outline has no corners but the notch below the cap; each bar runs from its inner stroke to its outer stroke. The end points are begin and end of the path (exchanged for reversed braces), stretched around their middle and moved to the left of the path by dist.", "quantifier": "all end points and all values of the fifteen parameters for which the path can be computed; a condition is given under which it can", "why_tests_cant": "A test looks at a few pictures; short paths, slanted strokes and curved paths with a distance are not among them.", "anchors": ["pyx/deco.py: brace._halfbracepath_pt, brace._bracepath, brace.decorate"]}
{"id": "C154", "title": "Specials of PyX in DVI files color, turn, scale, mark and include what they enclose", "statement": "On a page where all groups are closed, the canvas read from a DVI file contains all characters, rules and included EPS files of the page, in their order, each in exactly the groups (colors, rotations, scalings) which are open at its place. A marker is found where it is seen from outside of its groups. Colors are those written; rotations and scalings keep the current point in place. Pages with closed groups and markers of different names are never refused; closing a group which is not open, unknown commands and repeated markers in one group are errors.", "quantifier": "all pages (lists of items of any length and nesting), all colors, angles, factors and positions", "why_tests_cant": "Nesting depth, order of groups and the combination of transformations for markers have no bound; tests typeset a few examples.", "anchors": ["pyx/dvi/dvifile.py: DVIfile.special, DVIfile.beginsubpage, DVIfile.endsubpage, DVIfile.readpage"]}
{"id": "C155", "title": "Font metric files of TeX are read completely, and texts get the box of their characters", "statement": "Every TFM file (any number of characters and table entries, any form of the header) is read such that header fields, character words and all tables are those of the file; the dimensions of a character are the table entries to which its word points, and characters which are not in the font are errors. A truncated file is an error wherever it ends. Nothing is printed. Fonts are refused if the check sums of TFM and DVI file differ. The box of a text is the smallest one containing the boxes of its characters set one after the other.", "quantifier": "all contents of TFM files allowed by the format, all positions of truncation, all lists of characters", "why_tests_cant": "Real fonts use a few forms of the header and no damaged files; tests with TeX installed see only these.", "anchors": ["pyx/dvi/tfmfile.py: TFMfile.__init__, char_info_word", "pyx/dvi/texfont.py: TeXfont.__init__, TeXfont.getwidth_dvi, TeXtext_pt.__init__", "pyx/reader.py: reader.readstring"]}
{"id": "C156", "title": "Positions on paths can be given as parameters or lengths, alone or in lists, in any order", "statement": "For all methods which take positions on a path (at, rotation, trafo, tangent, curvature, with and without _pt, paramtoarclen, arclentoparam), a list of positions gives the list of the values at these positions in the same order, parameters and lengths may be mixed, and a single position gives the value it has in a list. Methods with _pt take lengths in points, those without in any unit, and both agree. Parameters of other paths are refused.", "quantifier": "all paths with any number of sub-paths, all lists of positions", "why_tests_cant": "The results are collected sub-path by sub-path; lists which visit sub-paths in any order, several times, have no bound, and a wrong unit shows only in pictures.", "anchors": ["pyx/normpath.py: normpath._convertparams, normpath._distributeparams, normpath._arclentoparam_pt, normpath._paramtoarclen_pt, normpath._at_pt, _valueorlistmethod", "pyx/path.py: path.rotation_pt, path.trafo_pt"]}
{"id": "C157", "title": "All pages of a DVI file are found in their order and in the right units", "statement": "Reading a DVI file finds its preamble and all its pages in their order, whatever no-operations are between, and then the end of the file; a page with another number than expected is an error. One unit of the file becomes num/den times 10^-7 m times mag/1000 in PostScript points, and the units of TFM files become the units of the DVI file such that 2^20 of them are one TeX point.", "quantifier": "all DVI files with any number of pages, all page numbers, all units", "why_tests_cant": "TeX always writes the same units and no no-operations; other programs write other legal files.", "anchors": ["pyx/dvi/dvifile.py: DVIfile._read_pre, DVIfile.readpage", "pyx/text.py: SingleRunner.finish_job"]}
{"id": "C158", "title": "A path drawn with a color gradient shows the colors of the gradient in order along the path", "statement": "Decorating a path with colorgradient in some number of steps shows, at each place of the path, the color of the step the place is in: when the path is divided into pieces of equal length, the first piece has the first color of the gradient and the last one the last color, and nothing is left out, although the pieces overlap.", "quantifier": "all paths, gradients, numbers of steps and places on the path", "why_tests_cant": "The pieces overlap and the order of painting decides which color is seen; unit tests see a list of strokes, not what is visible at each of infinitely many places.", "anchors": ["pyx/deco.py: colorgradient.decorate", "pyx/normpath.py: normpath.split", "pyx/color.py: gradient.select"]}
{"id": "C159", "title": "A normpath written to PostScript, PDF or SVG draws exactly its lines and curves", "statement": "Writing a normpath to PostScript, PDF or SVG (there with the y axis pointing downwards if wished) draws exactly the lines and curves of its sub-paths, in their order, each closed if and only if it is closed in the normpath, although the last line of closed sub-paths is not written. Converting a normpath to a path and writing that gives the same PostScript.", "quantifier": "all normpaths whose sub-paths are connected", "why_tests_cant": "The number of sub-paths and items has no bound; what a closing operator adds is decided by the reader of the file, not by the code.", "anchors": ["pyx/normpath.py: normpath.outputPS, normpath.outputPDF, normpath.returnSVGdata, normpath.path, normsubpath.outputPS, normsubpath.outputPDF, normsubpath.returnSVGdata, normsubpath.pathitems"]}
{"id": "C160", "title": "Bitmaps show at each pixel the color and the opacity of the image", "statement": "A bitmap written to PDF shows at each pixel the color of the image, which is that of the palette if the image has one, with the opacity of the alpha channel. In PostScript the same holds, with pixels of full opacity shown and pixels of zero opacity not shown. This is true whether or not the data is compressed, and whether it is stored or part of the page.", "quantifier": "all images of the module with any number of pixels, in all modes, with any palette, compressed or not, and all ways of storing the data", "why_tests_cant": "The colors are computed by the reader of the file from a color space, a table, a range and filtered data; tests would have to look at rendered pages for each combination.", "anchors": ["pyx/bitmap.py: devicenames, decodestrings, PDFimage.__init__, PDFimage.write, bitmap_trafo.imagedata, bitmap_trafo.processPS, bitmap_trafo.processPDF, asciihexstream"]}
{"id": "C161", "title": "The intersection step of parallel keeps exactly the connected outlines, each piece once", "statement": "When the parallel deformer cuts away the parts of the parallel path between self-intersections, the search for outlines always ends. Each sub-path of the result consists of pieces between neighbouring crossings, continues only at crossings which allow it or over the end of closed sub-paths, never reaches a crossing with the original path or an excluded point, and leads back to its begin or to the end of an open sub-path. No piece is used twice. Each such outline from a possible begin is found. All pieces are parts of a single sub-path.", "quantifier": "all numbers and arrangements of sub-paths, crossings with their directions, crossings with the original path, ends and excluded points", "why_tests_cant": "The number of arrangements grows without bound; the loop has no counter, so its termination cannot be tested.", "anchors": ["pyx/deformer.py: parallel.rebuild_intersected_normpath, trial_parampairs"]}
{"id": "C162", "title": "Crossings of a parallel path have one direction, are listed once, and points between the path and its parallel are excluded", "statement": "Each crossing of the parallel path with itself is passed in exactly one direction, onto the branch which leads away from the original path; branches which only touch are decided by their curvatures. A crossing which is found several times is entered once, with the smallest first and the largest second parameter found. A point is excluded if and only if it is between the original path and the parallel one.", "quantifier": "all tangents, curvatures, distances of both signs, lists of crossings found, points, lines, arcs around corners and curves", "why_tests_cant": "The cases depend on real numbers for tangents, curvatures and positions, and on lists of any length.", "anchors": ["pyx/deformer.py: parallel._can_continue, parallel.normpath_selfintersections, parallel._skip_intersection_doublet, parallel._between_paths, intersection"]}
{"id": "C163", "title": "The strings of form fields are read as they are given", "statement": "The name and the value of a text field, the name, the default and the options of a choice field, and the lines of a default text are read by a PDF viewer as they are given, and what is written behind them stays intact.", "quantifier": "all strings, lists of options of any length and texts of any number of lines", "why_tests_cant": "Which strings survive depends on the nesting of parentheses at any depth and on the escapes of the PDF format.", "anchors": ["pyx/pdfextra.py: PDFtextfield.write, PDFdefaulttext.write, PDFbuttonlist.write, PDFchoicefield.write"]}
{"id": "C164", "title": "A text goes where its box goes", "statement": "When a text is transformed, transformed relative to its anchor or aligned, before or after its page has been read, the characters drawn, the markers found, the outline, the corners of its box and the bounding box all move together; the anchor is the origin of the text unless it is kept.", "quantifier": "all texts, all sequences of transformations and alignments, with the page read at any time between them", "why_tests_cant": "The place of a text is kept three times (box, transformation, canvas of the page), and the canvas exists only after the page has been read; tests try a few orders only.", "anchors": ["pyx/text.py: textextbox_pt.__init__, transform, readdvipage, dvicanvas, marker, textpath, processPS, processPDF, processSVG; unicodetextbox_pt.__init__, transform, textpath", "pyx/box.py: polygon_pt.transform, reltransform, bbox; rect_pt.__init__"]}
{"id": "C165", "title": "A mesh shows its triangles in their colors", "statement": "A mesh passes the check exactly if it consists of triangles in the plane with gray, RGB or CMYK colors of one kind, and then the shading written to PostScript or PDF, with or without compression, shows each triangle at its place and each corner in its color, up to the resolution of the format.", "quantifier": "all meshes with any number of elements, all coordinates and colors", "why_tests_cant": "The dictionary, the filters, the decode array and the data have to agree for any number of triangles and any numbers; tests compare a few files.", "anchors": ["pyx/mesh.py: mesh.__init__, bbox, data, processPS, processPDF", "pyx/color.py: gray, rgb, cmyk, hsb: colorspacestring, to8bitbytes"]}
{"id": "C166", "title": "Drawing a path follows its attributes", "statement": "Drawing a path with a list of attributes adds exactly one item to the canvas: the path deformed by all deformers and transformations in the given order, stroked with the styles of the last stroked decorator and filled with those of the last filled decorator unless these were cleared later (hatching replaces a filling), with the last style of each class, line widths before dashes, and with the ornaments of all decorators, computed for the deformed path wherever the deformers are in the list. Nothing is drawn if an attribute is not for paths or a deformer or decorator fails; no list of attributes strokes or fills a path twice.", "quantifier": "all canvases, paths and lists of attributes of any length and order, with any deformers and decorators", "why_tests_cant": "The outcome depends on the order and the repetition of attributes of many classes; tests try a few lists.", "anchors": ["pyx/canvas.py: canvas.draw, stroke, fill", "pyx/attr.py: mergeattrs, checkattrs, getattrs, exclusiveattr, sortbeforeexclusiveattr, clearclass", "pyx/deco.py: decoratedpath, _stroked, _filled, linehatched.merge"]}
{"id": "C167", "title": "Copies of decorators keep what is not changed", "statement": "Calling an arrow, a hatching or a line smoothing with some arguments gives a copy with these arguments and otherwise the same parameters, attributes and styles.", "quantifier": "all decorators with any attributes and all combinations of arguments", "why_tests_cant": "A copy merges its attributes with the defaults for a second time; whether something changes depends on the whole list of attributes.", "anchors": ["pyx/deco.py: arrow.__init__, __call__, linehatched.__init__, __call__", "pyx/pattern.py: hatched.__init__, __call__", "pyx/deformer.py: linesmoothed.__init__, __call__"]}
{"id": "C168", "title": "Parameters of the parallel deformer keep their item", "statement": "A parameter given by sub-path, item and value in the item from zero to one always yields a point of this item, exactly the point asked for inside of the item and within 1e-8 of the parameter at its end; it is ordered by sub-path, item and value, and this order is that of the parameters along the sub-path. Where two items meet (also at the closing point), smaller_equiv changes from the begin of the second item to the end of the first and larger_equiv changes back; both always return a parameter of the same sub-path at a distance below epsilon. The search for self-intersections compares any two different items of a path exactly once.", "quantifier": "all paths with any number of sub-paths and items of any shape, all parameters and epsilons", "why_tests_cant": "The outcome depends on roundings at the ends of items and on the lengths of the items; tests use short items and parameters inside of them.", "anchors": ["pyx/deformer.py: mynormpathparam, parallel.normpath_selfintersections, parallel.normpath_origintersections", "pyx/normpath.py: normsubpath._distributeparams, normsubpath.at_pt"]}
{"id": "C169", "title": "Supplementary files of TeX are given back", "statement": "Each file in usefiles is available to TeX as texput with the extension of the file, and after the run the file has the content TeX has left there, so it is unchanged when TeX does not change it, and a further run of TeX finds what the previous one has written. All other files of the user are untouched.", "quantifier": "all lists of files of any length, all contents, and any behaviour of TeX in its directory", "why_tests_cant": "The outcome depends on the file systems, on the names of all files together and on what TeX writes; tests have one file on one file system.", "anchors": ["pyx/text.py: SingleEngine.do_start, SingleEngine._cleanup"]}
{"id": "C170", "title": "Operations on a path do not change other paths", "statement": "Copying, adding, joining, reversing, transforming and splitting normpaths gives new normpaths whose later changes in place (append, join, +=) do not change any other normpath, and adding a path in place ends. The normpath of a path is always the one of its items, also after items were appended.", "quantifier": "all programs of any length of these operations on any number of paths and normpaths with any sub-paths", "why_tests_cant": "Sharing of sub-paths is visible only through a later change of another object; tests compare the results of single operations.", "anchors": ["pyx/normpath.py: normpath.__init__, __add__, __iadd__, append, copy, join, joined, reversed, transformed, _split_pt", "pyx/path.py: path.append, path.normpath"]}
{"id": "C171", "title": "Values of the configuration", "statement": "config.get, getint, getfloat, getboolean and getlist return the value of the last configuration file (internal, user, PYXRC) which mentions the option, converted as asked for; the default is returned exactly if no file mentions it. Lists whose items contain blanks, written with the mark for blanks, are read back item by item.", "quantifier": "all contents of the configuration files, all options, all defaults and all lists of items", "why_tests_cant": "Any contents of the files of users; the precedence and the escaping of blanks have to hold for all of them.", "anchors": ["pyx/config.py: get, getint, getfloat, getboolean, getlist, space"]}
{"id": "C172", "title": "Type 1 fonts embedded in PDF files", "statement": "A PDF reader gets the three parts of an embedded Type 1 font back byte by byte, except for a trailer of zeros and cleartomark; the font descriptor contains all required entries with the values of the glyphs, and the angle by which the font leans. Fonts in PFA form can be read like those in PFB form.", "quantifier": "all fonts with any bytes, with and without compression, all outlines of glyphs", "why_tests_cant": "Any font file; errors in the lengths show up in some viewers only.", "anchors": ["pyx/font/t1file.py: T1File.outputPDF, writePDFfontinfo, getglyphinfo, from_PFA_bytes, from_PF_bytes"]}
{"id": "C173", "title": "Output by Ghostscript", "statement": "writeGSfile runs Ghostscript once on the whole EPS or PDF output of the canvas, with the device and the file name given or guessed as documented, at the resolution given; options of the user take precedence. pipeGS returns what Ghostscript writes. No temporary file is left behind, and a failure of Ghostscript is reported as an exception.", "quantifier": "all file names, devices, options and outputs, all behaviours of Ghostscript", "why_tests_cant": "Ghostscript is not part of unit tests, and failures leave files only on other machines.", "anchors": ["pyx/canvas.py: canvas._gscmd, canvas.writeGSfile, canvas.pipeGS"]}
{"id": "C174", "title": "The line reader of EPS files delivers the file piece by piece", "statement": "Any calls of readline and read of the line reader deliver consecutive pieces of the file: each line with its line end (CR, LF or CRLF), the number of bytes asked for, or the rest. Put together they are the file. A call asking for more than is left raises an IOError and loses nothing, or returns what is left if the message is None.", "quantifier": "for all files, all sequences of calls, all sizes of the parts in which the file is read", "why_tests_cant": "Lines and bytes are taken from a buffer filled by both methods; which part is in the buffer depends on all calls before.", "anchors": ["pyx/epsfile.py: linefilereader.__init__, linefilereader.read, linefilereader.readline"]}
{"id": "C175", "title": "Lines of font maps give the font and the encoding in the files they name", "statement": "A line of a font map gives one font: the font program in the file it names (which must have the name in the line) with the metrics of the AFM file of the same name, otherwise with those of the PFM file, otherwise without metrics; without a font file the builtin font with its AFM file. Its encoding is the vector of the encoding file, which must have the name given by ReEncodeFont, or none without an encoding file. Font and encoding are read once: after a call was successful, all calls give the same result whatever happens to the files; after a failure the next call tries again.", "quantifier": "for all lines, all files and locators with their states, all sequences of calls with files changing in between, all readers of the formats", "why_tests_cant": "Tests need a TeX installation, where AFM files are there and files do not change; missing metrics and other locators than kpsewhich are never met.", "anchors": ["pyx/dvi/mapfile.py: MAPline.getfont, MAPline.getencoding", "pyx/config.py: open, full_filenames"]}
{"id": "C176", "title": "Labels of an axis are chosen such that they do not cross", "statement": "If there are several partitions to choose from, the axis gets at least two labels, none of which crosses the next one (unless labels are not painted). A layout is unsuitable if and only if it has less than two labels or a label crosses the next one; otherwise its rate is the mean of the weighted relative deviations of the distances from the optimal distance, which is never negative, and 0 if and only if all distances are optimal.", "quantifier": "for all lists of labels of any shape, all raters with positive optimum, weight and density, all axes with any ticks, painters and ranges", "why_tests_cant": "The choice depends on the sizes of all labels, which come from TeX; touching labels and axes with a single label are rare.", "anchors": ["pyx/graph/axis/rater.py: rater.ratelayout, distance.rate", "pyx/graph/axis/axis.py: _regularaxis._create"]}
{"id": "C177", "title": "Data get the titles and styles they are asked for", "statement": "A given title, None too, is the title of the data; without one, data made of data are titled by the original title and the columns, whatever the order of the keyword arguments, and joined data by all titles in order. Data made of data keep the default styles; joined data have those of their parts if these are one list. Plotting uses given styles for all data; otherwise the default styles, which must be the same for all data, and data without default styles cannot be plotted.", "quantifier": "for all data, titles, columns in any order, lists of joined data and lists of plotted data", "why_tests_cant": "The outcome depends on the order of the data, on identity or equality of style lists, and on characters in titles; tests try a few orders and plain titles.", "anchors": ["pyx/graph/data.py: data.__init__, function.__init__, paramfunction.__init__, join.__init__", "pyx/graph/graph.py: graph.plot, plotitem.__init__", "pyx/text.py: escapestring"]}
{"id": "C178", "title": "Texts are typeset by the engine one has chosen", "statement": "text.set makes an engine with the given arguments, and afterwards all functions of the module text are methods of this engine; if it fails everything stays as it was. The texts of a canvas are typeset by the engine given to it last, and without one by the default engine of the time at which the canvas was made, whatever is set later. The labels of axes are typeset by the engine of the painter, and otherwise by that of the graph; the key of a graph and linked axes use the engine of the graph or of their painter in the same way.", "quantifier": "for all calls of set with positional and keyword arguments, and all histories of making canvases and graphs, changing their engines and changing the default engine", "why_tests_cant": "Which engine is used depends on the order of calls in a whole session and on module globals; tests set one engine at the top of a script.", "anchors": ["pyx/text.py: set, defaulttextengine", "pyx/canvas.py: canvas.__init__, canvas.settextengine, canvas.text", "pyx/graph/axis/painter.py: axiscanvas.__init__", "pyx/graph/axis/axis.py: _axis.createlinked", "pyx/graph/key.py: key.paintcolumn", "pyx/graph/graph.py: graphxy.__init__"]}
{"id": "C179", "title": "shownormpath shows the whole construction of a path", "statement": "deco.shownormpath strokes every line and every curve of a path once, in order, with the attributes for its kind; draws for each curve, and only for curves, the lines from its ends to its control points and dots at both control points; and puts one dot at each vertex of every sub-path, above all the rest. Passing None leaves out exactly that part.", "quantifier": "for all paths with any number of sub-paths and items, all sizes and attributes, given or None", "why_tests_cant": "The ornaments are a combination of three loops with five optional attributes over arbitrary paths; tests look at one picture.", "anchors": ["pyx/deco.py: shownormpath.__init__, shownormpath.decorate"]}
{"id": "C180", "title": "Boxes collected while writing bitmaps, meshes and SVG files", "statement": "Writing an item extends the box handed to the method by the box of the item, in every output format, also inside of nested canvases. Hence the box of a page is the enlarged box of its canvas in all formats, and a pattern has the same box in all formats.", "quantifier": "for all pictures of nested canvases with filled paths, bitmaps, meshes and SVG files, all transformations and boxes collected before, all three formats", "why_tests_cant": "Tests write single pictures and do not compare the boxes of the formats; the effect of a missing update depends on what else is in the picture.", "anchors": ["pyx/baseclasses.py: canvasitem.processPS, canvasitem.processPDF", "pyx/canvas.py: canvas.bbox, canvas.processPS, canvas.processPDF, canvas.processSVG", "pyx/bitmap.py: bitmap_trafo.processPS, processPDF, processSVG", "pyx/mesh.py: mesh.processSVG", "pyx/svgfile.py: svgfile_pt.processPS, processPDF, processSVG", "pyx/pattern.py: SVGpattern.output", "pyx/document.py: page._process"]}
