import Verif.Svg.NumberProps
import Mathlib.Tactic.FieldSimp

/-!
# Colors and line styles of SVG files (`svgfile.py:89-90, 283-385`): model and C142
-/

set_option linter.unusedSectionVars false
set_option maxRecDepth 100000

namespace PyX.Svg.Paint

/-! ## Colors: model -/

def lit (s : String) : List Char := s.toList

/-- `names` (`svgfile.py:290-338`). -/
def names : List (List Char × List Char) :=
  [(lit "aliceblue", lit "rgb(240, 248, 255)"), (lit "antiquewhite", lit "rgb(250, 235, 215)"), (lit "aqua", lit "rgb( 0, 255, 255)"),
   (lit "aquamarine", lit "rgb(127, 255, 212)"), (lit "azure", lit "rgb(240, 255, 255)"), (lit "beige", lit "rgb(245, 245, 220)"),
   (lit "bisque", lit "rgb(255, 228, 196)"), (lit "black", lit "rgb( 0, 0, 0)"), (lit "blanchedalmond", lit "rgb(255, 235, 205)"),
   (lit "blue", lit "rgb( 0, 0, 255)"), (lit "blueviolet", lit "rgb(138, 43, 226)"), (lit "brown", lit "rgb(165, 42, 42)"),
   (lit "burlywood", lit "rgb(222, 184, 135)"), (lit "cadetblue", lit "rgb( 95, 158, 160)"), (lit "chartreuse", lit "rgb(127, 255, 0)"),
   (lit "chocolate", lit "rgb(210, 105, 30)"), (lit "coral", lit "rgb(255, 127, 80)"), (lit "cornflowerblue", lit "rgb(100, 149, 237)"),
   (lit "cornsilk", lit "rgb(255, 248, 220)"), (lit "crimson", lit "rgb(220, 20, 60)"), (lit "cyan", lit "rgb( 0, 255, 255)"),
   (lit "darkblue", lit "rgb( 0, 0, 139)"), (lit "darkcyan", lit "rgb( 0, 139, 139)"), (lit "darkgoldenrod", lit "rgb(184, 134, 11)"),
   (lit "darkgray", lit "rgb(169, 169, 169)"), (lit "darkgreen", lit "rgb( 0, 100, 0)"), (lit "darkgrey", lit "rgb(169, 169, 169)"),
   (lit "darkkhaki", lit "rgb(189, 183, 107)"), (lit "darkmagenta", lit "rgb(139, 0, 139)"), (lit "darkolivegreen", lit "rgb( 85, 107, 47)"),
   (lit "darkorange", lit "rgb(255, 140, 0)"), (lit "darkorchid", lit "rgb(153, 50, 204)"), (lit "darkred", lit "rgb(139, 0, 0)"),
   (lit "darksalmon", lit "rgb(233, 150, 122)"), (lit "darkseagreen", lit "rgb(143, 188, 143)"), (lit "darkslateblue", lit "rgb( 72, 61, 139)"),
   (lit "darkslategray", lit "rgb( 47, 79, 79)"), (lit "darkslategrey", lit "rgb( 47, 79, 79)"), (lit "darkturquoise", lit "rgb( 0, 206, 209)"),
   (lit "darkviolet", lit "rgb(148, 0, 211)"), (lit "deeppink", lit "rgb(255, 20, 147)"), (lit "deepskyblue", lit "rgb( 0, 191, 255)"),
   (lit "dimgray", lit "rgb(105, 105, 105)"), (lit "dimgrey", lit "rgb(105, 105, 105)"), (lit "dodgerblue", lit "rgb( 30, 144, 255)"),
   (lit "firebrick", lit "rgb(178, 34, 34)"), (lit "floralwhite", lit "rgb(255, 250, 240)"), (lit "forestgreen", lit "rgb( 34, 139, 34)"),
   (lit "fuchsia", lit "rgb(255, 0, 255)"), (lit "gainsboro", lit "rgb(220, 220, 220)"), (lit "ghostwhite", lit "rgb(248, 248, 255)"),
   (lit "gold", lit "rgb(255, 215, 0)"), (lit "goldenrod", lit "rgb(218, 165, 32)"), (lit "gray", lit "rgb(128, 128, 128)"),
   (lit "grey", lit "rgb(128, 128, 128)"), (lit "green", lit "rgb( 0, 128, 0)"), (lit "greenyellow", lit "rgb(173, 255, 47)"),
   (lit "honeydew", lit "rgb(240, 255, 240)"), (lit "hotpink", lit "rgb(255, 105, 180)"), (lit "indianred", lit "rgb(205, 92, 92)"),
   (lit "indigo", lit "rgb( 75, 0, 130)"), (lit "ivory", lit "rgb(255, 255, 240)"), (lit "khaki", lit "rgb(240, 230, 140)"),
   (lit "lavender", lit "rgb(230, 230, 250)"), (lit "lavenderblush", lit "rgb(255, 240, 245)"), (lit "lawngreen", lit "rgb(124, 252, 0)"),
   (lit "lemonchiffon", lit "rgb(255, 250, 205)"), (lit "lightblue", lit "rgb(173, 216, 230)"), (lit "lightcoral", lit "rgb(240, 128, 128)"),
   (lit "lightcyan", lit "rgb(224, 255, 255)"), (lit "lightgoldenrodyellow", lit "rgb(250, 250, 210)"), (lit "lightgray", lit "rgb(211, 211, 211)"),
   (lit "lightgreen", lit "rgb(144, 238, 144)"), (lit "lightgrey", lit "rgb(211, 211, 211)"), (lit "lightpink", lit "rgb(255, 182, 193)"),
   (lit "lightsalmon", lit "rgb(255, 160, 122)"), (lit "lightseagreen", lit "rgb( 32, 178, 170)"), (lit "lightskyblue", lit "rgb(135, 206, 250)"),
   (lit "lightslategray", lit "rgb(119, 136, 153)"), (lit "lightslategrey", lit "rgb(119, 136, 153)"), (lit "lightsteelblue", lit "rgb(176, 196, 222)"),
   (lit "lightyellow", lit "rgb(255, 255, 224)"), (lit "lime", lit "rgb( 0, 255, 0)"), (lit "limegreen", lit "rgb( 50, 205, 50)"),
   (lit "linen", lit "rgb(250, 240, 230)"), (lit "magenta", lit "rgb(255, 0, 255)"), (lit "maroon", lit "rgb(128, 0, 0)"),
   (lit "mediumaquamarine", lit "rgb(102, 205, 170)"), (lit "mediumblue", lit "rgb( 0, 0, 205)"), (lit "mediumorchid", lit "rgb(186, 85, 211)"),
   (lit "mediumpurple", lit "rgb(147, 112, 219)"), (lit "mediumseagreen", lit "rgb( 60, 179, 113)"), (lit "mediumslateblue", lit "rgb(123, 104, 238)"),
   (lit "mediumspringgreen", lit "rgb( 0, 250, 154)"), (lit "mediumturquoise", lit "rgb( 72, 209, 204)"), (lit "mediumvioletred", lit "rgb(199, 21, 133)"),
   (lit "midnightblue", lit "rgb( 25, 25, 112)"), (lit "mintcream", lit "rgb(245, 255, 250)"), (lit "mistyrose", lit "rgb(255, 228, 225)"),
   (lit "moccasin", lit "rgb(255, 228, 181)"), (lit "navajowhite", lit "rgb(255, 222, 173)"), (lit "navy", lit "rgb( 0, 0, 128)"),
   (lit "oldlace", lit "rgb(253, 245, 230)"), (lit "olive", lit "rgb(128, 128, 0)"), (lit "olivedrab", lit "rgb(107, 142, 35)"),
   (lit "orange", lit "rgb(255, 165, 0)"), (lit "orangered", lit "rgb(255, 69, 0)"), (lit "orchid", lit "rgb(218, 112, 214)"),
   (lit "palegoldenrod", lit "rgb(238, 232, 170)"), (lit "palegreen", lit "rgb(152, 251, 152)"), (lit "paleturquoise", lit "rgb(175, 238, 238)"),
   (lit "palevioletred", lit "rgb(219, 112, 147)"), (lit "papayawhip", lit "rgb(255, 239, 213)"), (lit "peachpuff", lit "rgb(255, 218, 185)"),
   (lit "peru", lit "rgb(205, 133, 63)"), (lit "pink", lit "rgb(255, 192, 203)"), (lit "plum", lit "rgb(221, 160, 221)"),
   (lit "powderblue", lit "rgb(176, 224, 230)"), (lit "purple", lit "rgb(128, 0, 128)"), (lit "red", lit "rgb(255, 0, 0)"),
   (lit "rosybrown", lit "rgb(188, 143, 143)"), (lit "royalblue", lit "rgb( 65, 105, 225)"), (lit "saddlebrown", lit "rgb(139, 69, 19)"),
   (lit "salmon", lit "rgb(250, 128, 114)"), (lit "sandybrown", lit "rgb(244, 164, 96)"), (lit "seagreen", lit "rgb( 46, 139, 87)"),
   (lit "seashell", lit "rgb(255, 245, 238)"), (lit "sienna", lit "rgb(160, 82, 45)"), (lit "silver", lit "rgb(192, 192, 192)"),
   (lit "skyblue", lit "rgb(135, 206, 235)"), (lit "slateblue", lit "rgb(106, 90, 205)"), (lit "slategray", lit "rgb(112, 128, 144)"),
   (lit "slategrey", lit "rgb(112, 128, 144)"), (lit "snow", lit "rgb(255, 250, 250)"), (lit "springgreen", lit "rgb( 0, 255, 127)"),
   (lit "steelblue", lit "rgb( 70, 130, 180)"), (lit "tan", lit "rgb(210, 180, 140)"), (lit "teal", lit "rgb( 0, 128, 128)"),
   (lit "thistle", lit "rgb(216, 191, 216)"), (lit "tomato", lit "rgb(255, 99, 71)"), (lit "turquoise", lit "rgb( 64, 224, 208)"),
   (lit "violet", lit "rgb(238, 130, 238)"), (lit "wheat", lit "rgb(245, 222, 179)"), (lit "white", lit "rgb(255, 255, 255)"),
   (lit "whitesmoke", lit "rgb(245, 245, 245)"), (lit "yellow", lit "rgb(255, 255, 0)"), (lit "yellowgreen", lit "rgb(154, 205, 50)")]

/-- `names.get(name, name)`. -/
def lookup (l : List (List Char × List Char)) (name : List Char) : List Char :=
  match l with
  | [] => name
  | e :: l => if e.1 = name then e.2 else lookup l name

/-- `strip()`. -/
def strip (s : List Char) : List Char := ((s.dropWhile ws).reverse.dropWhile ws).reverse

/-- `\s*([0-9]+)\s*` and a following character; with a percent sign behind the digits if `pct`. -/
def readPart (pct : Bool) (last : Char) (s : List Char) : Option (ℕ × List Char) :=
  let t := s.dropWhile ws
  let d := t.takeWhile digit
  let r := t.dropWhile digit
  if d = [] then none
  else
    match (if pct then (match r with | '%' :: r' => some r' | _ => none) else some r) with
    | none => none
    | some r =>
      match r.dropWhile ws with
      | c :: r => if c = last then some (natOf d, r) else none
      | [] => none

/-- `_svgColorAbsPattern` and `_svgColorRelPattern` (`svgfile.py:89-90`; the text is stripped, so `$` is its end). -/
def readRgb (pct : Bool) (s : List Char) : Option (ℕ × ℕ × ℕ) :=
  if (s.take 4).map Char.toLower = lit "rgb(" then
    (readPart pct ',' (s.drop 4)).bind fun r =>
    (readPart pct ',' r.2).bind fun g =>
    (readPart pct ')' g.2).bind fun b => if b.2 = [] then some (r.1, g.1, b.1) else none
  else none

/-- The value of a hexadecimal digit. -/
def hexDigit (c : Char) : Option ℕ :=
  if '0' ≤ c ∧ c ≤ '9' then some (c.toNat - 48)
  else if 'a' ≤ c ∧ c ≤ 'f' then some (c.toNat - 87)
  else if 'A' ≤ c ∧ c ≤ 'F' then some (c.toNat - 55)
  else none

/-- Exceptions: a value out of range, a wrong number of digits, a character which is no digit. -/
inductive Err
  | range | length | digit
deriving DecidableEq

/-- `color.rgb(r, g, b)` (`color.py:116-126`) with `value/unit` for each. -/
def rgb (unit : ℕ) (v : ℕ × ℕ × ℕ) : Except Err (ℚ × ℚ × ℚ) :=
  if v.1 > unit ∨ v.2.1 > unit ∨ v.2.2 > unit then .error .range else .ok ((v.1 : ℚ) / unit, (v.2.1 : ℚ) / unit, (v.2.2 : ℚ) / unit)

/-- A byte (`binascii.a2b_hex`). -/
def hexByte (a b : Char) : Except Err ℕ :=
  match hexDigit a, hexDigit b with
  | some x, some y => .ok (16 * x + y)
  | _, _ => .error .digit

/-- Three bytes. -/
def hexBytes (a b c d e f : Char) : Except Err (ℚ × ℚ × ℚ) :=
  (hexByte a b).bind fun r => (hexByte c d).bind fun g => (hexByte e f).bind fun b => rgb 255 (r, g, b)

/-- `color.rgbfromhexstring` (`color.py:173-179`). -/
def fromHex (s : List Char) : Except Err (ℚ × ℚ × ℚ) :=
  match (strip s).dropWhile (· = '#') with
  | [a, b, c] => hexBytes a a b b c c
  | [a, b, c, d, e, f] => hexBytes a b c d e f
  | _ => .error .length

/-- `toColor` (`svgfile.py:283-346`); `none`: nothing is painted. -/
def toColor (inherited : Option (ℚ × ℚ × ℚ)) (name : List Char) : Except Err (Option (ℚ × ℚ × ℚ)) :=
  if name = lit "currentColor" then .ok none
  else if name = lit "inherit" then .ok inherited
  else if name = lit "none" then .ok none
  else
    match readRgb false (strip (lookup names name)) with
    | some v => (rgb 255 v).map some
    | none =>
      match readRgb true (strip (lookup names name)) with
      | some v => (rgb 100 v).map some
      | none => (fromHex (lookup names name)).map some

/-! ## Colors: specification -/

/-- The color keywords of SVG 1.1 (section 4.4). -/
def keywords : List (List Char × ℕ × ℕ × ℕ) :=
  [(lit "aliceblue", 0xf0, 0xf8, 0xff), (lit "antiquewhite", 0xfa, 0xeb, 0xd7), (lit "aqua", 0x00, 0xff, 0xff),
   (lit "aquamarine", 0x7f, 0xff, 0xd4), (lit "azure", 0xf0, 0xff, 0xff), (lit "beige", 0xf5, 0xf5, 0xdc),
   (lit "bisque", 0xff, 0xe4, 0xc4), (lit "black", 0x00, 0x00, 0x00), (lit "blanchedalmond", 0xff, 0xeb, 0xcd),
   (lit "blue", 0x00, 0x00, 0xff), (lit "blueviolet", 0x8a, 0x2b, 0xe2), (lit "brown", 0xa5, 0x2a, 0x2a),
   (lit "burlywood", 0xde, 0xb8, 0x87), (lit "cadetblue", 0x5f, 0x9e, 0xa0), (lit "chartreuse", 0x7f, 0xff, 0x00),
   (lit "chocolate", 0xd2, 0x69, 0x1e), (lit "coral", 0xff, 0x7f, 0x50), (lit "cornflowerblue", 0x64, 0x95, 0xed),
   (lit "cornsilk", 0xff, 0xf8, 0xdc), (lit "crimson", 0xdc, 0x14, 0x3c), (lit "cyan", 0x00, 0xff, 0xff),
   (lit "darkblue", 0x00, 0x00, 0x8b), (lit "darkcyan", 0x00, 0x8b, 0x8b), (lit "darkgoldenrod", 0xb8, 0x86, 0x0b),
   (lit "darkgray", 0xa9, 0xa9, 0xa9), (lit "darkgreen", 0x00, 0x64, 0x00), (lit "darkgrey", 0xa9, 0xa9, 0xa9),
   (lit "darkkhaki", 0xbd, 0xb7, 0x6b), (lit "darkmagenta", 0x8b, 0x00, 0x8b), (lit "darkolivegreen", 0x55, 0x6b, 0x2f),
   (lit "darkorange", 0xff, 0x8c, 0x00), (lit "darkorchid", 0x99, 0x32, 0xcc), (lit "darkred", 0x8b, 0x00, 0x00),
   (lit "darksalmon", 0xe9, 0x96, 0x7a), (lit "darkseagreen", 0x8f, 0xbc, 0x8f), (lit "darkslateblue", 0x48, 0x3d, 0x8b),
   (lit "darkslategray", 0x2f, 0x4f, 0x4f), (lit "darkslategrey", 0x2f, 0x4f, 0x4f), (lit "darkturquoise", 0x00, 0xce, 0xd1),
   (lit "darkviolet", 0x94, 0x00, 0xd3), (lit "deeppink", 0xff, 0x14, 0x93), (lit "deepskyblue", 0x00, 0xbf, 0xff),
   (lit "dimgray", 0x69, 0x69, 0x69), (lit "dimgrey", 0x69, 0x69, 0x69), (lit "dodgerblue", 0x1e, 0x90, 0xff),
   (lit "firebrick", 0xb2, 0x22, 0x22), (lit "floralwhite", 0xff, 0xfa, 0xf0), (lit "forestgreen", 0x22, 0x8b, 0x22),
   (lit "fuchsia", 0xff, 0x00, 0xff), (lit "gainsboro", 0xdc, 0xdc, 0xdc), (lit "ghostwhite", 0xf8, 0xf8, 0xff),
   (lit "gold", 0xff, 0xd7, 0x00), (lit "goldenrod", 0xda, 0xa5, 0x20), (lit "gray", 0x80, 0x80, 0x80),
   (lit "grey", 0x80, 0x80, 0x80), (lit "green", 0x00, 0x80, 0x00), (lit "greenyellow", 0xad, 0xff, 0x2f),
   (lit "honeydew", 0xf0, 0xff, 0xf0), (lit "hotpink", 0xff, 0x69, 0xb4), (lit "indianred", 0xcd, 0x5c, 0x5c),
   (lit "indigo", 0x4b, 0x00, 0x82), (lit "ivory", 0xff, 0xff, 0xf0), (lit "khaki", 0xf0, 0xe6, 0x8c),
   (lit "lavender", 0xe6, 0xe6, 0xfa), (lit "lavenderblush", 0xff, 0xf0, 0xf5), (lit "lawngreen", 0x7c, 0xfc, 0x00),
   (lit "lemonchiffon", 0xff, 0xfa, 0xcd), (lit "lightblue", 0xad, 0xd8, 0xe6), (lit "lightcoral", 0xf0, 0x80, 0x80),
   (lit "lightcyan", 0xe0, 0xff, 0xff), (lit "lightgoldenrodyellow", 0xfa, 0xfa, 0xd2), (lit "lightgray", 0xd3, 0xd3, 0xd3),
   (lit "lightgreen", 0x90, 0xee, 0x90), (lit "lightgrey", 0xd3, 0xd3, 0xd3), (lit "lightpink", 0xff, 0xb6, 0xc1),
   (lit "lightsalmon", 0xff, 0xa0, 0x7a), (lit "lightseagreen", 0x20, 0xb2, 0xaa), (lit "lightskyblue", 0x87, 0xce, 0xfa),
   (lit "lightslategray", 0x77, 0x88, 0x99), (lit "lightslategrey", 0x77, 0x88, 0x99), (lit "lightsteelblue", 0xb0, 0xc4, 0xde),
   (lit "lightyellow", 0xff, 0xff, 0xe0), (lit "lime", 0x00, 0xff, 0x00), (lit "limegreen", 0x32, 0xcd, 0x32),
   (lit "linen", 0xfa, 0xf0, 0xe6), (lit "magenta", 0xff, 0x00, 0xff), (lit "maroon", 0x80, 0x00, 0x00),
   (lit "mediumaquamarine", 0x66, 0xcd, 0xaa), (lit "mediumblue", 0x00, 0x00, 0xcd), (lit "mediumorchid", 0xba, 0x55, 0xd3),
   (lit "mediumpurple", 0x93, 0x70, 0xdb), (lit "mediumseagreen", 0x3c, 0xb3, 0x71), (lit "mediumslateblue", 0x7b, 0x68, 0xee),
   (lit "mediumspringgreen", 0x00, 0xfa, 0x9a), (lit "mediumturquoise", 0x48, 0xd1, 0xcc), (lit "mediumvioletred", 0xc7, 0x15, 0x85),
   (lit "midnightblue", 0x19, 0x19, 0x70), (lit "mintcream", 0xf5, 0xff, 0xfa), (lit "mistyrose", 0xff, 0xe4, 0xe1),
   (lit "moccasin", 0xff, 0xe4, 0xb5), (lit "navajowhite", 0xff, 0xde, 0xad), (lit "navy", 0x00, 0x00, 0x80),
   (lit "oldlace", 0xfd, 0xf5, 0xe6), (lit "olive", 0x80, 0x80, 0x00), (lit "olivedrab", 0x6b, 0x8e, 0x23),
   (lit "orange", 0xff, 0xa5, 0x00), (lit "orangered", 0xff, 0x45, 0x00), (lit "orchid", 0xda, 0x70, 0xd6),
   (lit "palegoldenrod", 0xee, 0xe8, 0xaa), (lit "palegreen", 0x98, 0xfb, 0x98), (lit "paleturquoise", 0xaf, 0xee, 0xee),
   (lit "palevioletred", 0xdb, 0x70, 0x93), (lit "papayawhip", 0xff, 0xef, 0xd5), (lit "peachpuff", 0xff, 0xda, 0xb9),
   (lit "peru", 0xcd, 0x85, 0x3f), (lit "pink", 0xff, 0xc0, 0xcb), (lit "plum", 0xdd, 0xa0, 0xdd),
   (lit "powderblue", 0xb0, 0xe0, 0xe6), (lit "purple", 0x80, 0x00, 0x80), (lit "red", 0xff, 0x00, 0x00),
   (lit "rosybrown", 0xbc, 0x8f, 0x8f), (lit "royalblue", 0x41, 0x69, 0xe1), (lit "saddlebrown", 0x8b, 0x45, 0x13),
   (lit "salmon", 0xfa, 0x80, 0x72), (lit "sandybrown", 0xf4, 0xa4, 0x60), (lit "seagreen", 0x2e, 0x8b, 0x57),
   (lit "seashell", 0xff, 0xf5, 0xee), (lit "sienna", 0xa0, 0x52, 0x2d), (lit "silver", 0xc0, 0xc0, 0xc0),
   (lit "skyblue", 0x87, 0xce, 0xeb), (lit "slateblue", 0x6a, 0x5a, 0xcd), (lit "slategray", 0x70, 0x80, 0x90),
   (lit "slategrey", 0x70, 0x80, 0x90), (lit "snow", 0xff, 0xfa, 0xfa), (lit "springgreen", 0x00, 0xff, 0x7f),
   (lit "steelblue", 0x46, 0x82, 0xb4), (lit "tan", 0xd2, 0xb4, 0x8c), (lit "teal", 0x00, 0x80, 0x80),
   (lit "thistle", 0xd8, 0xbf, 0xd8), (lit "tomato", 0xff, 0x63, 0x47), (lit "turquoise", 0x40, 0xe0, 0xd0),
   (lit "violet", 0xee, 0x82, 0xee), (lit "wheat", 0xf5, 0xde, 0xb3), (lit "white", 0xff, 0xff, 0xff),
   (lit "whitesmoke", 0xf5, 0xf5, 0xf5), (lit "yellow", 0xff, 0xff, 0x00), (lit "yellowgreen", 0x9a, 0xcd, 0x32)]

/-- White space. -/
def Blank (w : List Char) : Prop := ∀ c ∈ w, ws c = true

/-- Digits. -/
def Digits (d : List Char) : Prop := d ≠ [] ∧ ∀ c ∈ d, digit c = true

/-! ## Colors: theorems -/

/-- **C142 (keywords).** Each of the color keywords of SVG is the color which SVG says. -/
theorem keyword_color (inherited : Option (ℚ × ℚ × ℚ)) (e : List Char × ℕ × ℕ × ℕ) (he : e ∈ keywords) :
    toColor inherited e.1 = .ok (some ((e.2.1 : ℚ) / 255, (e.2.2.1 : ℚ) / 255, (e.2.2.2 : ℚ) / 255)) := by
  have key : ∀ e ∈ keywords, readRgb false (strip (lookup names e.1)) = some e.2 ∧ e.1 ≠ lit "currentColor" ∧ e.1 ≠ lit "inherit" ∧ e.1 ≠ lit "none" ∧
      ¬ (e.2.1 > 255 ∨ e.2.2.1 > 255 ∨ e.2.2.2 > 255) := by decide +kernel
  obtain ⟨h1, h2, h3, h4, h5⟩ := key e he
  unfold toColor
  rw [if_neg h2, if_neg h3, if_neg h4, h1]
  simp only [rgb, if_neg h5, Except.map]
  rfl

theorem drop_blank (w r : List Char) (hw : Blank w) (hr : ∀ c, r.head? = some c → ws c = false) : (w ++ r).dropWhile ws = r := (span_spec ws w r hw hr).2

theorem strip_text (w v : List Char) (hw : Blank w) (hv : Blank v) (s : List Char) (h1 : ∀ c, s.head? = some c → ws c = false)
    (h2 : ∀ c, s.getLast? = some c → ws c = false) : strip (w ++ (s ++ v)) = s := by
  unfold strip
  by_cases hs : s = []
  · subst hs
    have : Blank (w ++ ([] ++ v)) := by
      intro c hc
      simp only [List.nil_append, List.mem_append] at hc
      rcases hc with hc | hc
      · exact hw c hc
      · exact hv c hc
    have e := drop_blank (w ++ ([] ++ v)) [] this (by simp)
    rw [List.append_nil] at e
    rw [e]; rfl
  · rw [drop_blank w (s ++ v) hw (by
      intro c hc
      obtain ⟨a, l, rfl⟩ := List.exists_cons_of_ne_nil hs
      exact h1 c hc)]
    rw [List.reverse_append, drop_blank v.reverse s.reverse (fun c hc => hv c (List.mem_reverse.mp hc)) (by
      intro c hc
      rw [List.head?_reverse] at hc
      exact h2 c hc), List.reverse_reverse]

/-- The text of one number. -/
def part (pct : Bool) (w d v : List Char) : List Char := w ++ (d ++ ((if pct then ['%'] else []) ++ v))

theorem readPart_text (pct : Bool) (last : Char) (hl : ws last = false ∧ digit last = false ∧ last ≠ '%') (w d v r : List Char) (hw : Blank w) (hd : Digits d) (hv : Blank v) :
    readPart pct last (part pct w d v ++ last :: r) = some (natOf d, r) := by
  have hh : ∀ c, d.head? = some c → ws c = false := fun c hc => (digit_not (hd.2 c (List.mem_of_mem_head? hc))).2.2.2.2.2.2.1
  have wsd : ∀ c, ws c = true → digit c = false := by
    intro c hc
    exact (ws_not (.inl hc)).1
  unfold readPart part
  have e1 : (w ++ (d ++ ((if pct then ['%'] else []) ++ v)) ++ last :: r).dropWhile ws = d ++ ((if pct then ['%'] else []) ++ (v ++ last :: r)) := by
    simp only [List.append_assoc]
    exact drop_blank w _ hw (by
      intro c hc
      obtain ⟨a, l, rfl⟩ := List.exists_cons_of_ne_nil hd.1
      exact hh c hc)
  have nd : ∀ c, ((if pct then ['%'] else []) ++ (v ++ last :: r)).head? = some c → digit c = false := by
    intro c hc
    cases pct with
    | true => simp at hc; rw [← hc]; decide
    | false =>
      cases v with
      | nil => simp at hc; rw [← hc]; exact hl.2.1
      | cons a v => simp at hc; rw [← hc]; exact wsd a (hv a (by simp))
  have e2 := span_spec digit d ((if pct then ['%'] else []) ++ (v ++ last :: r)) hd.2 nd
  simp only
  rw [e1, e2.1, e2.2, if_neg hd.1]
  have e3 := drop_blank v (last :: r) hv (by intro c hc; simp at hc; rw [← hc]; exact hl.1)
  cases pct with
  | true =>
    simp only [if_pos, List.cons_append, List.nil_append]
    rw [e3]
    simp
  | false =>
    simp only [Bool.false_eq_true, if_false, List.nil_append]
    rw [e3]
    simp

/-- `rgb(…)` with three numbers, with white space anywhere but inside of numbers. -/
def rgbText (pct : Bool) (w1 r v1 w2 g v2 w3 b v3 : List Char) : List Char :=
  lit "rgb(" ++ (part pct w1 r v1 ++ ',' :: (part pct w2 g v2 ++ ',' :: (part pct w3 b v3 ++ [')'])))

theorem readRgb_text (pct : Bool) {w1 r v1 w2 g v2 w3 b v3 : List Char} (h1 : Blank w1) (h2 : Blank v1) (h3 : Blank w2) (h4 : Blank v2) (h5 : Blank w3) (h6 : Blank v3)
    (hr : Digits r) (hg : Digits g) (hb : Digits b) : readRgb pct (rgbText pct w1 r v1 w2 g v2 w3 b v3) = some (natOf r, natOf g, natOf b) := by
  unfold readRgb rgbText
  have e0 : (List.take 4 (lit "rgb(" ++ (part pct w1 r v1 ++ ',' :: (part pct w2 g v2 ++ ',' :: (part pct w3 b v3 ++ [')']))))).map Char.toLower = lit "rgb(" := by
    rw [List.take_append_of_le_length (by decide)]
    decide
  have e1 : List.drop 4 (lit "rgb(" ++ (part pct w1 r v1 ++ ',' :: (part pct w2 g v2 ++ ',' :: (part pct w3 b v3 ++ [')'])))) =
      part pct w1 r v1 ++ ',' :: (part pct w2 g v2 ++ ',' :: (part pct w3 b v3 ++ [')'])) := List.drop_left' (by decide)
  rw [if_pos e0, e1, readPart_text pct ',' (by decide) w1 r v1 _ h1 hr h2]
  simp only [Option.bind_some]
  rw [readPart_text pct ',' (by decide) w2 g v2 _ h3 hg h4]
  simp only [Option.bind_some]
  rw [readPart_text pct ')' (by decide) w3 b v3 _ h5 hb h6]
  simp

theorem takeWhile_all (p : Char → Bool) (l : List Char) : ∀ c ∈ l.takeWhile p, p c = true := by
  intro c hc
  have := List.all_takeWhile (l := l) (p := p)
  exact List.all_eq_true.mp this c hc

/-- What is read as a number is a number with white space around it and the character behind it. -/
theorem readPart_sound (pct : Bool) (last : Char) (s r : List Char) (n : ℕ) (h : readPart pct last s = some (n, r)) :
    ∃ w d v, Blank w ∧ Digits d ∧ Blank v ∧ natOf d = n ∧ s = part pct w d v ++ last :: r := by
  unfold readPart at h
  dsimp only at h
  split at h
  · cases h
  · next hd =>
    have hs : s = s.takeWhile ws ++ ((s.dropWhile ws).takeWhile digit ++ (s.dropWhile ws).dropWhile digit) := by
      rw [List.takeWhile_append_dropWhile, List.takeWhile_append_dropWhile]
    split at h
    · cases h
    · next x r1 hr1 =>
      split at h
      · next y c r2 hr2 =>
        split at h
        · next hc =>
          injection h with h
          injection h with h1 h2
          refine ⟨s.takeWhile ws, (s.dropWhile ws).takeWhile digit, r1.takeWhile ws, takeWhile_all ws s, ⟨hd, takeWhile_all digit _⟩, takeWhile_all ws r1, h1, ?_⟩
          have e1 : r1 = r1.takeWhile ws ++ last :: r := by
            conv_lhs => rw [← List.takeWhile_append_dropWhile (p := ws) (l := r1)]
            rw [hr2, hc, h2]
          have e2 : (s.dropWhile ws).dropWhile digit = (if pct then ['%'] else []) ++ r1 := by
            cases pct with
            | false => simpa using hr1
            | true =>
              simp only [if_true] at hr1
              split at hr1
              · next z hz =>
                injection hr1 with hr1
                rw [hz, hr1]; rfl
              · cases hr1
          conv_lhs => rw [hs, e2, e1]
          simp only [part, List.append_assoc]
        · cases h
      · cases h

/-- C142: only `rgb(…)`, in any case, with three numbers and nothing behind is read as such a color. -/
theorem readRgb_sound (pct : Bool) (s : List Char) (x y z : ℕ) (h : readRgb pct s = some (x, y, z)) :
    ∃ k w1 r v1 w2 g v2 w3 b v3, k.map Char.toLower = lit "rgb(" ∧ Blank w1 ∧ Blank v1 ∧ Blank w2 ∧ Blank v2 ∧ Blank w3 ∧ Blank v3 ∧ Digits r ∧ Digits g ∧ Digits b ∧
      (natOf r, natOf g, natOf b) = (x, y, z) ∧ s = k ++ (part pct w1 r v1 ++ ',' :: (part pct w2 g v2 ++ ',' :: (part pct w3 b v3 ++ [')']))) := by
  unfold readRgb at h
  by_cases hk : (s.take 4).map Char.toLower = lit "rgb("
  · rw [if_pos hk] at h
    obtain ⟨⟨r, s1⟩, hr, h⟩ := Option.bind_eq_some_iff.mp h
    obtain ⟨⟨g, s2⟩, hg, h⟩ := Option.bind_eq_some_iff.mp h
    obtain ⟨⟨b, s3⟩, hb, h⟩ := Option.bind_eq_some_iff.mp h
    dsimp only at hg hb h
    by_cases he : s3 = []
    · rw [if_pos he] at h
      injection h with h
      obtain ⟨w1, d1, v1, a1, a2, a3, a4, a5⟩ := readPart_sound _ _ _ _ _ hr
      obtain ⟨w2, d2, v2, b1, b2, b3, b4, b5⟩ := readPart_sound _ _ _ _ _ hg
      obtain ⟨w3, d3, v3, c1, c2, c3, c4, c5⟩ := readPart_sound _ _ _ _ _ hb
      refine ⟨s.take 4, w1, d1, v1, w2, d2, v2, w3, d3, v3, hk, a1, a3, b1, b3, c1, c3, a2, b2, c2, by rw [a4, b4, c4]; exact h, ?_⟩
      conv_lhs => rw [← List.take_append_drop 4 s, a5, b5, c5, he]
    · rw [if_neg he] at h; cases h
  · rw [if_neg hk] at h; cases h

example : readRgb false (lit "RGB( 12 ,0, 255)") = some (12, 0, 255) ∧ readRgb false (lit "rgb(1,2,3) x") = none := by decide +kernel

/-- The two notations do not match each other. -/
theorem readPart_other (last : Char) (hl : last ≠ '%') (w d v r : List Char) (hw : Blank w) (hd : Digits d) :
    readPart false last (part true w d v ++ r) = none := by
  have hh : ∀ c, d.head? = some c → ws c = false := fun c hc => (digit_not (hd.2 c (List.mem_of_mem_head? hc))).2.2.2.2.2.2.1
  unfold readPart part
  have e1 : (w ++ (d ++ ((if true then ['%'] else []) ++ v)) ++ r).dropWhile ws = d ++ ('%' :: (v ++ r)) := by
    simp only [List.append_assoc, if_true, List.cons_append, List.nil_append]
    exact drop_blank w _ hw (by
      intro c hc
      obtain ⟨a, l, rfl⟩ := List.exists_cons_of_ne_nil hd.1
      exact hh c hc)
  have e2 := span_spec digit d ('%' :: (v ++ r)) hd.2 (by intro c hc; simp at hc; rw [← hc]; decide)
  rw [e1]
  dsimp only
  rw [e2.1, e2.2, if_neg hd.1]
  simp only [Bool.false_eq_true, if_false]
  rw [show ('%' :: (v ++ r)).dropWhile ws = '%' :: (v ++ r) from rfl]
  simp only
  rw [if_neg (Ne.symm hl)]

theorem lookup_other (l : List (List Char × List Char)) (name : List Char) (h : ∀ e ∈ l, e.1 ≠ name) : lookup l name = name := by
  induction l with
  | nil => rfl
  | cons e l ih =>
    unfold lookup
    rw [if_neg (h e (by simp))]
    exact ih fun e he => h e (List.mem_cons_of_mem _ he)

/-- All names which `toColor` knows consist of letters. -/
theorem known_letters : (∀ e ∈ names, '(' ∉ e.1 ∧ '#' ∉ e.1) ∧ ('(' ∉ lit "currentColor" ∧ '(' ∉ lit "inherit" ∧ '(' ∉ lit "none") ∧
    ('#' ∉ lit "currentColor" ∧ '#' ∉ lit "inherit" ∧ '#' ∉ lit "none") := by decide +kernel

theorem toColor_other (inherited : Option (ℚ × ℚ × ℚ)) (name : List Char) (h : '(' ∈ name ∨ '#' ∈ name) :
    lookup names name = name ∧ toColor inherited name =
      match readRgb false (strip name) with
      | some v => (rgb 255 v).map some
      | none =>
        match readRgb true (strip name) with
        | some v => (rgb 100 v).map some
        | none => (fromHex name).map some := by
  obtain ⟨k1, ⟨k2, k3, k4⟩, k5, k6, k7⟩ := known_letters
  have hn : lookup names name = name := lookup_other names name (by
    rintro e he rfl
    rcases h with h | h
    · exact (k1 e he).1 h
    · exact (k1 e he).2 h)
  refine ⟨hn, ?_⟩
  have n1 : name ≠ lit "currentColor" := by rintro rfl; rcases h with h | h; exacts [k2 h, k5 h]
  have n2 : name ≠ lit "inherit" := by rintro rfl; rcases h with h | h; exacts [k3 h, k6 h]
  have n3 : name ≠ lit "none" := by rintro rfl; rcases h with h | h; exacts [k4 h, k7 h]
  unfold toColor
  rw [if_neg n1, if_neg n2, if_neg n3, hn]

theorem mem_rgbText (pct : Bool) (w1 r v1 w2 g v2 w3 b v3 : List Char) : '(' ∈ rgbText pct w1 r v1 w2 g v2 w3 b v3 := by
  unfold rgbText
  exact List.mem_append_left _ (by decide)

theorem strip_rgbText (pct : Bool) (w v w1 r v1 w2 g v2 w3 b v3 : List Char) (hw : Blank w) (hv : Blank v) :
    strip (w ++ (rgbText pct w1 r v1 w2 g v2 w3 b v3 ++ v)) = rgbText pct w1 r v1 w2 g v2 w3 b v3 := by
  apply strip_text w v hw hv
  · intro c hc
    have : c = 'r' := by
      unfold rgbText at hc
      simpa [lit] using hc.symm
    rw [this]; decide
  · intro c hc
    have : c = ')' := by
      unfold rgbText at hc
      simpa [List.getLast?_append, List.getLast?_cons] using hc.symm
    rw [this]; decide

/-- **C142 (numbers).** `rgb(…)` with three numbers up to 255 is the color with these parts of 255, whatever white space there is; larger
numbers are an exception. -/
theorem rgb_color (inherited : Option (ℚ × ℚ × ℚ)) {w v w1 r v1 w2 g v2 w3 b v3 : List Char} (hw : Blank w) (hv : Blank v) (h1 : Blank w1) (h2 : Blank v1) (h3 : Blank w2)
    (h4 : Blank v2) (h5 : Blank w3) (h6 : Blank v3) (hr : Digits r) (hg : Digits g) (hb : Digits b) :
    toColor inherited (w ++ (rgbText false w1 r v1 w2 g v2 w3 b v3 ++ v)) =
      if natOf r ≤ 255 ∧ natOf g ≤ 255 ∧ natOf b ≤ 255 then .ok (some ((natOf r : ℚ) / 255, (natOf g : ℚ) / 255, (natOf b : ℚ) / 255)) else .error .range := by
  rw [(toColor_other inherited _ (.inl (List.mem_append_right _ (List.mem_append_left _ (mem_rgbText false w1 r v1 w2 g v2 w3 b v3))))).2,
    strip_rgbText false w v w1 r v1 w2 g v2 w3 b v3 hw hv, readRgb_text false h1 h2 h3 h4 h5 h6 hr hg hb]
  simp only [rgb]
  by_cases h : natOf r ≤ 255 ∧ natOf g ≤ 255 ∧ natOf b ≤ 255
  · rw [if_pos h, if_neg (by omega)]; rfl
  · rw [if_neg h, if_pos (by omega)]; rfl

/-- **C142 (percentages).** The same for percentages up to 100. -/
theorem percent_color (inherited : Option (ℚ × ℚ × ℚ)) {w v w1 r v1 w2 g v2 w3 b v3 : List Char} (hw : Blank w) (hv : Blank v) (h1 : Blank w1) (h2 : Blank v1) (h3 : Blank w2)
    (h4 : Blank v2) (h5 : Blank w3) (h6 : Blank v3) (hr : Digits r) (hg : Digits g) (hb : Digits b) :
    toColor inherited (w ++ (rgbText true w1 r v1 w2 g v2 w3 b v3 ++ v)) =
      if natOf r ≤ 100 ∧ natOf g ≤ 100 ∧ natOf b ≤ 100 then .ok (some ((natOf r : ℚ) / 100, (natOf g : ℚ) / 100, (natOf b : ℚ) / 100)) else .error .range := by
  have hno : readRgb false (rgbText true w1 r v1 w2 g v2 w3 b v3) = none := by
    unfold readRgb rgbText
    split
    · rw [List.drop_left' (show (lit "rgb(").length = 4 by decide), readPart_other ',' (by decide) w1 r v1 _ h1 hr]
      rfl
    · rfl
  rw [(toColor_other inherited _ (.inl (List.mem_append_right _ (List.mem_append_left _ (mem_rgbText true w1 r v1 w2 g v2 w3 b v3))))).2,
    strip_rgbText true w v w1 r v1 w2 g v2 w3 b v3 hw hv, hno, readRgb_text true h1 h2 h3 h4 h5 h6 hr hg hb]
  simp only [rgb]
  by_cases h : natOf r ≤ 100 ∧ natOf g ≤ 100 ∧ natOf b ≤ 100
  · rw [if_pos h, if_neg (by omega)]; rfl
  · rw [if_neg h, if_pos (by omega)]; rfl

/-! ### Hexadecimal numbers -/

/-- The digits in both cases, with their values. -/
def hexDigits : List (Char × ℕ) :=
  [('0', 0), ('1', 1), ('2', 2), ('3', 3), ('4', 4), ('5', 5), ('6', 6), ('7', 7), ('8', 8), ('9', 9), ('a', 10), ('b', 11), ('c', 12), ('d', 13), ('e', 14), ('f', 15),
   ('A', 10), ('B', 11), ('C', 12), ('D', 13), ('E', 14), ('F', 15)]

theorem hexDigits_spec : ∀ e ∈ hexDigits, hexDigit e.1 = some e.2 ∧ e.2 < 16 ∧ ws e.1 = false ∧ e.1 ≠ '#' := by decide +kernel

theorem hexByte_text {a b : Char × ℕ} (ha : a ∈ hexDigits) (hb : b ∈ hexDigits) : hexByte a.1 b.1 = .ok (16 * a.2 + b.2) := by
  unfold hexByte
  rw [(hexDigits_spec a ha).1, (hexDigits_spec b hb).1]

theorem hexBytes_text {a b c d e f : Char × ℕ} (ha : a ∈ hexDigits) (hb : b ∈ hexDigits) (hc : c ∈ hexDigits) (hd : d ∈ hexDigits) (he : e ∈ hexDigits) (hf : f ∈ hexDigits) :
    hexBytes a.1 b.1 c.1 d.1 e.1 f.1 = .ok (((16 * a.2 + b.2 : ℕ) : ℚ) / 255, ((16 * c.2 + d.2 : ℕ) : ℚ) / 255, ((16 * e.2 + f.2 : ℕ) : ℚ) / 255) := by
  unfold hexBytes
  rw [hexByte_text ha hb, hexByte_text hc hd, hexByte_text he hf]
  have := (hexDigits_spec a ha).2.1
  have := (hexDigits_spec b hb).2.1
  have := (hexDigits_spec c hc).2.1
  have := (hexDigits_spec d hd).2.1
  have := (hexDigits_spec e he).2.1
  have := (hexDigits_spec f hf).2.1
  simp only [Except.bind, rgb]
  rw [if_neg (by omega)]
  rfl

theorem not_rgb (pct : Bool) (s : List Char) (h : s.head? = some '#') : readRgb pct s = none := by
  obtain ⟨a, l, rfl⟩ : ∃ a l, s = a :: l := by cases s <;> simp at h ⊢
  simp at h
  subst h
  unfold readRgb
  rw [if_neg]
  intro h
  have := congrArg List.head? h
  simp [lit] at this

theorem hexText (inherited : Option (ℚ × ℚ × ℚ)) (w v s : List Char) (hw : Blank w) (hv : Blank v) (hs : s ≠ []) (hd : ∀ c ∈ s, ws c = false ∧ c ≠ '#') :
    toColor inherited (w ++ ('#' :: s ++ v)) =
      (match s with
      | [a, b, c] => hexBytes a a b b c c
      | [a, b, c, d, e, f] => hexBytes a b c d e f
      | _ => .error .length).map some := by
  have hst : strip (w ++ ('#' :: s ++ v)) = '#' :: s := by
    apply strip_text w v hw hv
    · intro c hc; simp at hc; rw [← hc]; decide
    · intro c hc
      obtain ⟨a, l, rfl⟩ := List.exists_cons_of_ne_nil hs
      rw [List.getLast?_cons_cons] at hc
      exact (hd c (List.mem_of_getLast? hc)).1
  rw [(toColor_other inherited _ (.inr (by simp))).2, hst, not_rgb false _ rfl, not_rgb true _ rfl]
  simp only
  unfold fromHex
  rw [hst]
  have : ('#' :: s).dropWhile (fun c => decide (c = '#')) = s := by
    obtain ⟨a, l, rfl⟩ := List.exists_cons_of_ne_nil hs
    rw [List.dropWhile_cons_of_pos (by simp), List.dropWhile_cons_of_neg (by simpa using (hd a (by simp)).2)]
  rw [this]

/-- **C142 (hexadecimal).** `#rrggbb` is the color with these parts of 255. -/
theorem hex_color (inherited : Option (ℚ × ℚ × ℚ)) (w v : List Char) (hw : Blank w) (hv : Blank v) {a b c d e f : Char × ℕ} (ha : a ∈ hexDigits) (hb : b ∈ hexDigits)
    (hc : c ∈ hexDigits) (hd : d ∈ hexDigits) (he : e ∈ hexDigits) (hf : f ∈ hexDigits) :
    toColor inherited (w ++ ('#' :: [a.1, b.1, c.1, d.1, e.1, f.1] ++ v)) =
      .ok (some (((16 * a.2 + b.2 : ℕ) : ℚ) / 255, ((16 * c.2 + d.2 : ℕ) : ℚ) / 255, ((16 * e.2 + f.2 : ℕ) : ℚ) / 255)) := by
  rw [hexText inherited w v _ hw hv (by simp) (by
    intro x hx
    simp only [List.mem_cons, List.not_mem_nil, or_false] at hx
    rcases hx with rfl | rfl | rfl | rfl | rfl | rfl
    exacts [(hexDigits_spec a ha).2.2, (hexDigits_spec b hb).2.2, (hexDigits_spec c hc).2.2, (hexDigits_spec d hd).2.2, (hexDigits_spec e he).2.2, (hexDigits_spec f hf).2.2])]
  simp only
  rw [hexBytes_text ha hb hc hd he hf]
  rfl

/-- **C142 (short form).** `#rgb` is the color with these parts of 15. -/
theorem short_color (inherited : Option (ℚ × ℚ × ℚ)) (w v : List Char) (hw : Blank w) (hv : Blank v) {a b c : Char × ℕ} (ha : a ∈ hexDigits) (hb : b ∈ hexDigits)
    (hc : c ∈ hexDigits) : toColor inherited (w ++ ('#' :: [a.1, b.1, c.1] ++ v)) = .ok (some ((a.2 : ℚ) / 15, (b.2 : ℚ) / 15, (c.2 : ℚ) / 15)) := by
  rw [hexText inherited w v _ hw hv (by simp) (by
    intro x hx
    simp only [List.mem_cons, List.not_mem_nil, or_false] at hx
    rcases hx with rfl | rfl | rfl
    exacts [(hexDigits_spec a ha).2.2, (hexDigits_spec b hb).2.2, (hexDigits_spec c hc).2.2])]
  simp only
  rw [hexBytes_text ha ha hb hb hc hc]
  have key : ∀ n : ℕ, ((16 * n + n : ℕ) : ℚ) / 255 = (n : ℚ) / 15 := by
    intro n
    push_cast
    ring
  rw [key, key, key]
  rfl

example : toColor none (lit " #7Fa ") = .ok (some (7 / 15, 15 / 15, 10 / 15)) :=
  short_color none (lit " ") (lit " ") (by unfold Blank; decide) (by unfold Blank; decide) (a := ('7', 7)) (b := ('F', 15)) (c := ('a', 10)) (by decide) (by decide) (by decide)

example : toColor none (lit "rgb( 51,0 , 255)") = .ok (some (51 / 255, 0 / 255, 255 / 255)) := by
  have h := rgb_color none (w := []) (v := []) (w1 := lit " ") (r := lit "51") (v1 := []) (w2 := []) (g := lit "0") (v2 := lit " ") (w3 := lit " ") (b := lit "255") (v3 := [])
    (by unfold Blank; decide) (by unfold Blank; decide) (by unfold Blank; decide) (by unfold Blank; decide) (by unfold Blank; decide) (by unfold Blank; decide)
    (by unfold Blank; decide) (by unfold Blank; decide) (by unfold Digits; decide) (by unfold Digits; decide) (by unfold Digits; decide)
  have e : natOf (lit "51") = 51 ∧ natOf (lit "0") = 0 ∧ natOf (lit "255") = 255 := by decide
  rw [e.1, e.2.1, e.2.2, if_pos (by decide)] at h
  exact_mod_cast h

/-- **C142 (inheritance).** -/
theorem inherit_color (inherited : Option (ℚ × ℚ × ℚ)) : toColor inherited (lit "inherit") = .ok inherited ∧ toColor inherited (lit "none") = .ok none := by
  unfold toColor
  constructor
  · rw [if_neg (by decide), if_pos rfl]
  · rw [if_neg (by decide), if_neg (by decide), if_pos rfl]

/-- `currentColor` is not painted at all, whatever the color is. -/
theorem currentColor_lost (inherited : Option (ℚ × ℚ × ℚ)) : toColor inherited (lit "currentColor") = .ok none := by
  unfold toColor
  rw [if_pos rfl]

/-- A value above 255, which SVG clips, or a gradient is an exception. -/
theorem refused_colors (inherited : Option (ℚ × ℚ × ℚ)) : toColor inherited (lit "rgb(300,0,0)") = .error .range ∧ toColor inherited (lit "url(#grad)") = .error .length ∧
    toColor inherited (lit "Red") = .error .digit ∧ toColor inherited (lit "Black") = .error .length := by
  have key : (readRgb false (strip (lookup names (lit "rgb(300,0,0)"))) = some (300, 0, 0)) ∧
      (readRgb false (strip (lookup names (lit "url(#grad)"))) = none ∧ readRgb true (strip (lookup names (lit "url(#grad)"))) = none) ∧
      (readRgb false (strip (lookup names (lit "Red"))) = none ∧ readRgb true (strip (lookup names (lit "Red"))) = none) ∧
      (readRgb false (strip (lookup names (lit "Black"))) = none ∧ readRgb true (strip (lookup names (lit "Black"))) = none) := by decide +kernel
  have key2 : fromHex (lookup names (lit "url(#grad)")) = .error .length ∧ fromHex (lookup names (lit "Red")) = .error .digit ∧
      fromHex (lookup names (lit "Black")) = .error .length := ⟨rfl, rfl, rfl⟩
  obtain ⟨a, ⟨b1, b2⟩, ⟨c1, c2⟩, d1, d2⟩ := key
  refine ⟨?_, ?_, ?_, ?_⟩
  · unfold toColor
    rw [if_neg (by decide), if_neg (by decide), if_neg (by decide), a]
    rfl
  · unfold toColor
    rw [if_neg (by decide), if_neg (by decide), if_neg (by decide), b1, b2, key2.1]
    rfl
  · unfold toColor
    rw [if_neg (by decide), if_neg (by decide), if_neg (by decide), c1, c2, key2.2.1]
    rfl
  · unfold toColor
    rw [if_neg (by decide), if_neg (by decide), if_neg (by decide), d1, d2, key2.2.2]
    rfl

/-! ## Styles: model -/

/-- The style attributes of an element. -/
inductive Style
  | dash (pattern : List Char) (offset : ℚ)
  | cap (k : Fin 3)
  | joint (k : Fin 3)
  | miter (v : ℚ)
  | width (v : ℚ)
  | evenodd (b : Bool)
deriving DecidableEq

/-- Exceptions. -/
inductive SErr
  | value | key
deriving DecidableEq

/-- `floatAttr` (`svgfile.py:350-357`) for an attribute which is present; text behind the number is ignored. -/
def floatOf (res : ℚ) (s : List Char) : Except SErr ℚ :=
  match toFloat res true none s with
  | some v => .ok v.1
  | none => .error .value

/-- The dictionaries (`svgfile.py:371-377, 383-384`). -/
def choice (l : List (List Char × Style)) (s : List Char) : Except SErr Style :=
  match l with
  | [] => .error .key
  | e :: l => if e.1 = s then .ok e.2 else choice l s

/-- An attribute which may be missing. -/
def optional (a : Option (List Char)) (f : List Char → Except SErr Style) : Except SErr (List Style) :=
  match a with
  | none => .ok []
  | some s => (f s).map fun x => [x]

/-- The offset (`svgfile.py:368`). -/
def offsetOf (res : ℚ) (a : Option (List Char)) : Except SErr ℚ :=
  match a with
  | none => .ok 0
  | some s => floatOf res s

/-- `pathAttrs` (`svgfile.py:359-385`) without the transformation. -/
def styles (res : ℚ) (get : List Char → Option (List Char)) : Except SErr (List Style) :=
  (optional (get (lit "stroke-dasharray")) fun s => (offsetOf res (get (lit "stroke-dashoffset"))).map fun o => .dash s o).bind fun a =>
  (optional (get (lit "stroke-linecap")) (choice [(lit "butt", .cap 0), (lit "round", .cap 1), (lit "square", .cap 2)])).bind fun b =>
  (optional (get (lit "stroke-linejoin")) (choice [(lit "miter", .joint 0), (lit "round", .joint 1), (lit "bevel", .joint 2)])).bind fun c =>
  (optional (get (lit "stroke-miterlimit")) fun s => (floatOf res s).map .miter).bind fun d =>
  (optional (get (lit "stroke-width")) fun s => (floatOf res s).map .width).bind fun e =>
  (optional (get (lit "fill-rule")) (choice [(lit "nonzero", .evenodd false), (lit "evenodd", .evenodd true)])).map fun f =>
    a ++ b ++ c ++ d ++ e ++ f

/-- Output of a dash pattern (`style.py:148-158` without `rellengths`).  The pattern is the generator of `toFloats` (`svgfile.py:367, 125-129`): it gives its numbers
once, and nothing when it is used again.  `true`: an exception. -/
def writeDash (res : ℚ) (gen : Option (List Char)) : (List ℚ × Bool) × Option (List Char) :=
  match gen with
  | some s => (toFloats res true s, none)
  | none => (([], false), none)

/-! ## Styles: theorems -/

/-- The text of a unit. -/
def unitText : Unit → List Char
  | .none => []
  | .px => lit "px"
  | .pt => lit "pt"
  | .pc => lit "pc"
  | .mm => lit "mm"
  | .cm => lit "cm"
  | .inch => lit "in"
  | .percent => lit "%"

/-- **C142 (lengths).** A number with a unit is the length in points. -/
theorem length_text (res : ℚ) (n : Num) (hv : n.Valid) (hf : n.frac ≠ some []) (u : Unit) (f : ℚ) (hu : factor res u = some f) :
    floatOf res (n.text ++ unitText u) = .ok (n.value * f) := by
  have hst : Stops n (unitText u) := by
    intro c hc
    cases u <;> simp [unitText, lit] at hc <;> subst hc <;> exact ⟨by decide, fun h => absurd h (by decide), by decide, by decide⟩
  unfold floatOf toFloat
  rw [readValue_text n (unitText u) hv hf hst]
  cases u <;> simp_all [unitText, lit, readUnit, factor, skipSep]

example : floatOf 96 (lit "2.5cm") = .ok (5 / 2 * (72 / 2.54)) := by
  have h := length_text 96 ⟨.none, lit "2", some (lit "5"), none⟩ ⟨by decide, by decide, by decide, by simp⟩ (by decide) .cm (72 / 2.54) (by norm_num [factor])
  refine Eq.trans h ?_
  congr 2
  decide +kernel

theorem optional_mem {a : Option (List Char)} {f : List Char → Except SErr Style} {l : List Style} (h : optional a f = .ok l) (x : Style) :
    x ∈ l ↔ ∃ s, a = some s ∧ f s = .ok x := by
  cases a with
  | none =>
    simp only [optional] at h
    cases h
    simp
  | some s =>
    simp only [optional] at h
    cases hf : f s with
    | error e => rw [hf] at h; simp [Except.map] at h
    | ok y =>
      rw [hf] at h
      simp only [Except.map, Except.ok.injEq] at h
      subst h
      simp only [List.mem_singleton, Option.some.injEq]
      constructor
      · rintro rfl; exact ⟨s, rfl, hf⟩
      · rintro ⟨t, rfl, ht⟩
        rw [hf] at ht
        cases ht; rfl

theorem bind_ok {α β : Type} {x : Except SErr α} {f : α → Except SErr β} {b : β} (h : x.bind f = .ok b) : ∃ a, x = .ok a ∧ f a = .ok b := by
  cases x with
  | error e => simp [Except.bind] at h
  | ok a => exact ⟨a, rfl, h⟩

theorem map_ok {α β : Type} {x : Except SErr α} {f : α → β} {b : β} (h : x.map f = .ok b) : ∃ a, x = .ok a ∧ f a = b := by
  cases x with
  | error e => simp [Except.map] at h
  | ok a => simp only [Except.map, Except.ok.injEq] at h; exact ⟨a, rfl, h⟩

theorem choice_ok {l : List (List Char × Style)} {s : List Char} {x : Style} (h : choice l s = .ok x) : (s, x) ∈ l := by
  induction l with
  | nil => simp [choice] at h
  | cons e l ih =>
    unfold choice at h
    by_cases he : e.1 = s
    · rw [if_pos he] at h
      cases h
      rw [← he]
      exact List.mem_cons_self
    · rw [if_neg he] at h
      exact List.mem_cons_of_mem _ (ih h)

/-- What the attributes of an element say about a style. -/
def Says (res : ℚ) (get : List Char → Option (List Char)) : Style → Prop
  | .dash p o => get (lit "stroke-dasharray") = some p ∧
      ((get (lit "stroke-dashoffset") = none ∧ o = 0) ∨ ∃ t, get (lit "stroke-dashoffset") = some t ∧ floatOf res t = .ok o)
  | .cap k => get (lit "stroke-linecap") = some (if k = 0 then lit "butt" else if k = 1 then lit "round" else lit "square")
  | .joint k => get (lit "stroke-linejoin") = some (if k = 0 then lit "miter" else if k = 1 then lit "round" else lit "bevel")
  | .miter v => ∃ s, get (lit "stroke-miterlimit") = some s ∧ floatOf res s = .ok v
  | .width v => ∃ s, get (lit "stroke-width") = some s ∧ floatOf res s = .ok v
  | .evenodd b => get (lit "fill-rule") = some (if b then lit "evenodd" else lit "nonzero")

/-- **C142 (styles).** The styles of an element are what its attributes say: each attribute gives its own style, none is lost and none is invented. -/
theorem styles_mem {res : ℚ} {get : List Char → Option (List Char)} {l : List Style} (h : styles res get = .ok l) (x : Style) : x ∈ l ↔ Says res get x := by
  unfold styles at h
  obtain ⟨a, ha, h⟩ := bind_ok h
  obtain ⟨b, hb, h⟩ := bind_ok h
  obtain ⟨c, hc, h⟩ := bind_ok h
  obtain ⟨d, hd, h⟩ := bind_ok h
  obtain ⟨e, he, h⟩ := bind_ok h
  obtain ⟨f, hf, h⟩ := map_ok h
  subst h
  simp only [List.mem_append, optional_mem ha, optional_mem hb, optional_mem hc, optional_mem hd, optional_mem he, optional_mem hf]
  constructor
  · rintro (((((⟨s, h1, h2⟩ | ⟨s, h1, h2⟩) | ⟨s, h1, h2⟩) | ⟨s, h1, h2⟩) | ⟨s, h1, h2⟩) | ⟨s, h1, h2⟩)
    · obtain ⟨o, ho, rfl⟩ := map_ok h2
      refine ⟨h1, ?_⟩
      unfold offsetOf at ho
      cases hg : get (lit "stroke-dashoffset") with
      | none => rw [hg] at ho; cases ho; exact .inl ⟨rfl, rfl⟩
      | some t => rw [hg] at ho; exact .inr ⟨t, rfl, ho⟩
    · have := choice_ok h2
      simp only [List.mem_cons, List.not_mem_nil, or_false, Prod.mk.injEq] at this
      rcases this with ⟨rfl, rfl⟩ | ⟨rfl, rfl⟩ | ⟨rfl, rfl⟩ <;> exact h1
    · have := choice_ok h2
      simp only [List.mem_cons, List.not_mem_nil, or_false, Prod.mk.injEq] at this
      rcases this with ⟨rfl, rfl⟩ | ⟨rfl, rfl⟩ | ⟨rfl, rfl⟩ <;> exact h1
    · obtain ⟨o, ho, rfl⟩ := map_ok h2
      exact ⟨s, h1, ho⟩
    · obtain ⟨o, ho, rfl⟩ := map_ok h2
      exact ⟨s, h1, ho⟩
    · have := choice_ok h2
      simp only [List.mem_cons, List.not_mem_nil, or_false, Prod.mk.injEq] at this
      rcases this with ⟨rfl, rfl⟩ | ⟨rfl, rfl⟩ <;> exact h1
  · intro hx
    cases x with
    | dash p o =>
      obtain ⟨h1, h2⟩ := hx
      refine .inl (.inl (.inl (.inl (.inl ⟨p, h1, ?_⟩))))
      unfold offsetOf
      rcases h2 with ⟨h2, rfl⟩ | ⟨t, h2, h3⟩
      · rw [h2]; rfl
      · rw [h2]
        simp only
        rw [h3]; rfl
    | cap k =>
      refine .inl (.inl (.inl (.inl (.inr ⟨_, hx, ?_⟩))))
      fin_cases k <;> rfl
    | joint k =>
      refine .inl (.inl (.inl (.inr ⟨_, hx, ?_⟩)))
      fin_cases k <;> rfl
    | miter v =>
      obtain ⟨s, h1, h2⟩ := hx
      exact .inl (.inl (.inr ⟨s, h1, by rw [h2]; rfl⟩))
    | width v =>
      obtain ⟨s, h1, h2⟩ := hx
      exact .inl (.inr ⟨s, h1, by rw [h2]; rfl⟩)
    | evenodd b =>
      refine .inr ⟨_, hx, ?_⟩
      cases b <;> rfl

/-- Attributes of an element. -/
def attrsOf (l : List (List Char × List Char)) (k : List Char) : Option (List Char) := (l.find? fun e => e.1 = k).map Prod.snd

example : styles 72 (attrsOf [(lit "stroke-width", lit "2"), (lit "stroke-linecap", lit "round"), (lit "fill-rule", lit "evenodd")]) =
    .ok [.cap 1, .width 2, .evenodd true] := by decide +kernel

/-- **C142 (dashes).** The pattern written the first time is the list of lengths. -/
theorem dash_first (res : ℚ) (l : List (Num × List Char)) (h : Listed l) :
    (writeDash res (some (textOf l))).1 = (l.map fun a => a.1.value * (72 / res), false) := toFloats_text res l h

/-- The second time it is written it is empty: the line is solid in the second file (or where it is drawn a second time). -/
theorem dash_again (res : ℚ) (s : List Char) : (writeDash res (writeDash res (some s)).2).1 = ([], false) := rfl

/-- A dashed line in the first file is solid in the second one. -/
theorem dash_lost : ¬ ∀ (res : ℚ) (s : List Char), (writeDash res (writeDash res (some s)).2).1 = (writeDash res (some s)).1 := by
  intro h
  exact absurd (h 72 (lit "4 2")) (by decide +kernel)

/-- `stroke-dasharray="none"` is no exception when the file is read but when the result is written. -/
theorem dash_none : styles 72 (attrsOf [(lit "stroke-dasharray", lit "none")]) = .ok [.dash (lit "none") 0] ∧ (writeDash 72 (some (lit "none"))).1.2 = true := by
  decide +kernel

/-- A miter limit is a ratio, but is read as a length: 4 is 3 at the resolution 96. -/
theorem miter_scaled : styles 96 (attrsOf [(lit "stroke-miterlimit", lit "4")]) = .ok [.miter 3] := by decide +kernel

/-- **C142 (unknown words).** A word which is no line cap of SVG is an exception. -/
theorem unknown_cap (res : ℚ) (get : List Char → Option (List Char)) (s : List Char) (hs : get (lit "stroke-linecap") = some s)
    (h : s ≠ lit "butt" ∧ s ≠ lit "round" ∧ s ≠ lit "square") : ∃ e, styles res get = .error e := by
  cases hr : styles res get with
  | error e => exact ⟨e, rfl⟩
  | ok l =>
    exfalso
    unfold styles at hr
    obtain ⟨a, ha, hr⟩ := bind_ok hr
    obtain ⟨b, hb, hr⟩ := bind_ok hr
    rw [hs] at hb
    simp only [optional] at hb
    obtain ⟨x, hx, _⟩ := map_ok hb
    have := choice_ok hx
    simp only [List.mem_cons, List.not_mem_nil, or_false, Prod.mk.injEq] at this
    rcases this with ⟨g, _⟩ | ⟨g, _⟩ | ⟨g, _⟩
    exacts [h.1 g, h.2.1 g, h.2.2 g]

/-- So the word `inherit`, which is allowed in SVG, is refused. -/
theorem inherit_cap : styles 72 (attrsOf [(lit "stroke-linecap", lit "inherit")]) = .error .key := by decide +kernel

end PyX.Svg.Paint
