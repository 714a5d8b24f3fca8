import Mathlib.Algebra.Order.Floor.Ring
import Mathlib.Analysis.SpecialFunctions.Pow.Real

/-!
# Model of the colours and gradients of `pyx/color.py`

Components are elements of an ordered field (ℝ where a square root occurs).  `ValueError` of a constructor is `none`.
The output of colours is part of the canvas model.
-/

namespace PyX.Color

variable {K : Type*} [Field K] [LinearOrder K]

/-- The range test of all constructors: `if x<0 or x>1: raise ValueError`. -/
def inRange (x : K) : Bool := !(decide (x < 0) || decide (x > 1))

/-- `gray` (`color.py:69-77`). -/
@[ext]
structure Gray (K : Type*) where
  g : K
deriving DecidableEq

/-- `rgb` (`color.py:112-126`). -/
@[ext]
structure Rgb (K : Type*) where
  r : K
  g : K
  b : K
deriving DecidableEq

/-- `hsb` (`color.py:188-202`). -/
@[ext]
structure Hsb (K : Type*) where
  h : K
  s : K
  b : K
deriving DecidableEq

/-- `cmyk` (`color.py:228-245`). -/
@[ext]
structure Cmyk (K : Type*) where
  c : K
  m : K
  y : K
  k : K
deriving DecidableEq

/-- `gray(g)`. -/
def mkGray (g : K) : Option (Gray K) := if inRange g then some ⟨g⟩ else none

/-- `rgb(r, g, b)`. -/
def mkRgb (r g b : K) : Option (Rgb K) := if inRange r && inRange g && inRange b then some ⟨r, g, b⟩ else none

/-- `hsb(h, s, b)`. -/
def mkHsb (h s b : K) : Option (Hsb K) := if inRange h && inRange s && inRange b then some ⟨h, s, b⟩ else none

/-- `cmyk(c, m, y, k)`. -/
def mkCmyk (c m y k : K) : Option (Cmyk K) :=
  if inRange c && inRange m && inRange y && inRange k then some ⟨c, m, y, k⟩ else none

/-! ## Conversions -/

/-- The device-dependent functions (`color.py:33-51`). -/
structure Device (K : Type*) where
  ucrc : K → K
  ucrm : K → K
  ucry : K → K
  bg : K → K

/-- The defaults (`color.py:33-36`). -/
def Device.default : Device K := ⟨id, id, id, id⟩

/-- `gray.cmyk` (`color.py:88-89`). -/
def Gray.cmyk (x : Gray K) : Option (Cmyk K) := mkCmyk 0 0 0 (1 - x.g)

/-- `gray.hsb` (`color.py:95-96`). -/
def Gray.hsb (x : Gray K) : Option (Hsb K) := mkHsb 0 0 x.g

/-- `gray.rgb` (`color.py:98-99`). -/
def Gray.rgb (x : Gray K) : Option (Rgb K) := mkRgb x.g x.g x.g

/-- `rgb.cmyk` (`color.py:137-145`). -/
def Rgb.cmyk (d : Device K) (x : Rgb K) : Option (Cmyk K) :=
  let k := min (min (1 - x.r) (1 - x.g)) (1 - x.b)
  mkCmyk (min 1 (max 0 (1 - x.r - d.ucrc k))) (min 1 (max 0 (1 - x.g - d.ucrm k))) (min 1 (max 0 (1 - x.b - d.ucry k)))
    (d.bg k)

/-- `rgb.gray` (`color.py:147-148`). -/
def Rgb.gray (x : Rgb K) : Option (Gray K) := mkGray (3 / 10 * x.r + 59 / 100 * x.g + 11 / 100 * x.b)

/-- `colorsys.rgb_to_hsv` of the standard library. -/
def rgbToHsv [FloorRing K] (r g b : K) : K × K × K :=
  let maxc := max (max r g) b
  let minc := min (min r g) b
  let rangec := maxc - minc
  if minc = maxc then (0, 0, maxc)
  else
    let rc := (maxc - r) / rangec
    let gc := (maxc - g) / rangec
    let bc := (maxc - b) / rangec
    let h := if r = maxc then bc - gc else if g = maxc then 2 + rc - bc else 4 + gc - rc
    (Int.fract (h / 6), rangec / maxc, maxc)

/-- `rgb.hsb` (`color.py:151-153`). -/
def Rgb.hsb [FloorRing K] (x : Rgb K) : Option (Hsb K) :=
  let y := rgbToHsv x.r x.g x.b
  mkHsb y.1 y.2.1 y.2.2

/-- `colorsys.hsv_to_rgb` of the standard library (`int` truncates; the hue is not negative here). -/
def hsvToRgb [FloorRing K] (h s v : K) : K × K × K :=
  if s = 0 then (v, v, v)
  else
    let i := ⌊h * 6⌋
    let f := h * 6 - i
    let p := v * (1 - s)
    let q := v * (1 - s * f)
    let t := v * (1 - s * (1 - f))
    if i % 6 = 0 then (v, t, p)
    else if i % 6 = 1 then (q, v, p)
    else if i % 6 = 2 then (p, v, t)
    else if i % 6 = 3 then (p, q, v)
    else if i % 6 = 4 then (t, p, v)
    else (v, p, q)

/-- `hsb.rgb` (`color.py:220-222`). -/
def Hsb.rgb [FloorRing K] (x : Hsb K) : Option (Rgb K) :=
  let y := hsvToRgb x.h x.s x.b
  mkRgb y.1 y.2.1 y.2.2

/-- `hsb.cmyk` (`color.py:210-211`). -/
def Hsb.cmyk [FloorRing K] (d : Device K) (x : Hsb K) : Option (Cmyk K) := x.rgb.bind (Rgb.cmyk d)

/-- `hsb.gray` (`color.py:213-214`). -/
def Hsb.gray [FloorRing K] (x : Hsb K) : Option (Gray K) := x.rgb.bind Rgb.gray

/-- `cmyk.gray` (`color.py:259-260`). -/
def Cmyk.gray (x : Cmyk K) : Option (Gray K) :=
  mkGray (1 - min 1 (3 / 10 * x.c + 59 / 100 * x.m + 11 / 100 * x.y + x.k))

/-- `cmyk.rgb` (`color.py:266-272`). -/
def Cmyk.rgb (x : Cmyk K) : Option (Rgb K) :=
  mkRgb (1 - min 1 (x.c + x.k)) (1 - min 1 (x.m + x.k)) (1 - min 1 (x.y + x.k))

/-- `cmyk.hsb` (`color.py:263-264`). -/
def Cmyk.hsb [FloorRing K] (x : Cmyk K) : Option (Hsb K) := x.rgb.bind Rgb.hsb

/-! ## Hex strings -/

/-- A hex digit as written by `binascii.b2a_hex` (lower case). -/
def digit (n : ℕ) : Char := if n < 10 then Char.ofNat (48 + n) else Char.ofNat (87 + n)

/-- The value of a hex digit as read by `binascii.a2b_hex`; anything else raises (`none`). -/
def digitVal (c : Char) : Option ℕ :=
  if 48 ≤ c.toNat ∧ c.toNat ≤ 57 then some (c.toNat - 48)
  else if 97 ≤ c.toNat ∧ c.toNat ≤ 102 then some (c.toNat - 87)
  else if 65 ≤ c.toNat ∧ c.toNat ≤ 70 then some (c.toNat - 55)
  else none

/-- `rgb.to8bitbytes` (`color.py:161-162`): `int` of non-negative numbers; `struct.pack` rejects values which are not
bytes. -/
def Rgb.to8bitbytes [FloorRing K] (x : Rgb K) : Option (ℕ × ℕ × ℕ) :=
  let n (v : K) : ℕ := ⌊v * 255⌋.toNat
  if n x.r < 256 ∧ n x.g < 256 ∧ n x.b < 256 then some (n x.r, n x.g, n x.b) else none

/-- `binascii.b2a_hex` of three bytes. -/
def hex6 (v : ℕ × ℕ × ℕ) : List Char :=
  [digit (v.1 / 16), digit (v.1 % 16), digit (v.2.1 / 16), digit (v.2.1 % 16), digit (v.2.2 / 16), digit (v.2.2 % 16)]

/-- The shortening of six digits to three (`color.py:166-167`). -/
def cssStrip : List Char → List Char
  | [a, b, c, d, e, f] => if a = b ∧ c = d ∧ e = f then [a, c, e] else [a, b, c, d, e, f]
  | l => l

/-- `rgb.tohexstring` (`color.py:164-170`). -/
def Rgb.tohexstring [FloorRing K] (x : Rgb K) (cssstrip addhash : Bool) : Option (List Char) :=
  x.to8bitbytes.map fun v =>
    let s := if cssstrip then cssStrip (hex6 v) else hex6 v
    if addhash then '#' :: s else s

/-- The characters removed by `str.strip()`: space and the control characters HT, LF, VT, FF, CR and FS, GS, RS, US.
(Non-ASCII white space is left out: such a string would then be rejected by the model for its length or digits.) -/
def isWs (c : Char) : Bool := c.toNat == 32 || (decide (9 ≤ c.toNat) && decide (c.toNat ≤ 13)) ||
  (decide (28 ≤ c.toNat) && decide (c.toNat ≤ 31))

/-- `hexstring.strip().lstrip("#")` (`color.py:174`). -/
def clean (s : List Char) : List Char :=
  (((s.dropWhile isWs).reverse.dropWhile isWs).reverse).dropWhile (· == '#')

/-- Two digits to a byte. -/
def byte (a b : Char) : Option ℕ := do return 16 * (← digitVal a) + (← digitVal b)

/-- `struct.unpack("BBB", binascii.a2b_hex(..))` for six digits. -/
def bytes3 (a b c d e f : Char) : Option (ℕ × ℕ × ℕ) := do return (← byte a b, ← byte c d, ← byte e f)

/-- The digits of a hex string (`color.py:174-179`). -/
def hexBytes (s : List Char) : Option (ℕ × ℕ × ℕ) :=
  match clean s with
  | [a, b, c] => bytes3 a a b b c c
  | [a, b, c, d, e, f] => bytes3 a b c d e f
  | _ => none

/-- `rgbfromhexstring` (`color.py:173-179`). -/
def rgbfromhexstring (s : List Char) : Option (Rgb K) :=
  (hexBytes s).bind fun v => mkRgb ((v.1 : K) / 255) ((v.2.1 : K) / 255) ((v.2.2 : K) / 255)

/-! ## Gradients -/

/-- `maxcolor.x * x + mincolor.x * (1-x)` (`color.py:466-483`). -/
def lin (mn mx x : K) : K := mx * x + mn * (1 - x)

/-- `lineargradient_gray(mincolor, maxcolor).getcolor(x)` (`color.py:400-401, 472-473`). -/
def linGray (mn mx : Gray K) (x : K) : Option (Gray K) := mkGray (lin mn.g mx.g x)

/-- `lineargradient_rgb(..).getcolor(x)` (`color.py:459-460, 480-483`). -/
def linRgb (mn mx : Rgb K) (x : K) : Option (Rgb K) := mkRgb (lin mn.r mx.r x) (lin mn.g mx.g x) (lin mn.b mx.b x)

/-- `lineargradient_hsb(..).getcolor(x)` (`color.py:440-441, 475-478`). -/
def linHsb (mn mx : Hsb K) (x : K) : Option (Hsb K) := mkHsb (lin mn.h mx.h x) (lin mn.s mx.s x) (lin mn.b mx.b x)

/-- `lineargradient_cmyk(..).getcolor(x)` (`color.py:421-422, 466-470`). -/
def linCmyk (mn mx : Cmyk K) (x : K) : Option (Cmyk K) :=
  mkCmyk (lin mn.c mx.c x) (lin mn.m mx.m x) (lin mn.y mx.y x) (lin mn.k mx.k x)

/-- `gradient.select` (`color.py:375-381`); the colour function is `getcolor`. -/
def select {α : Type*} (getcolor : K → α) (index n : ℕ) : α :=
  getcolor (if n = 1 then 0 else (index : K) / ((n : K) - 1))

/-- `jet_r` (`color.py:556-560`). -/
def jetR (x : K) : K :=
  if x < 38 / 100 then 0
  else if x < 62 / 100 then (x - 38 / 100) / (62 / 100 - 38 / 100)
  else if x < 87 / 100 then 1
  else 1 / 2 + 1 / 2 * (1 - x) / (1 - 87 / 100)

/-- `jet_g` (`color.py:561-566`). -/
def jetG (x : K) : K :=
  if x < 13 / 100 then 0
  else if x < 38 / 100 then (x - 13 / 100) / (38 / 100 - 13 / 100)
  else if x < 62 / 100 then 1
  else if x < 87 / 100 then (87 / 100 - x) / (87 / 100 - 62 / 100)
  else 0

/-- `jet_b` (`color.py:567-571`). -/
def jetB (x : K) : K :=
  if x < 13 / 100 then 1 / 2 + 1 / 2 * x / (13 / 100)
  else if x < 38 / 100 then 1
  else if x < 62 / 100 then 1 - (x - 38 / 100) / (62 / 100 - 38 / 100)
  else 0

/-- `gradient.Jet` (`color.py:572`). -/
def jet (x : K) : Option (Rgb K) := mkRgb (jetR x) (jetG x) (jetB x)

/-- `gradient.ReverseJet` (`color.py:573`). -/
def reverseJet (x : K) : Option (Rgb K) := mkRgb (jetR (1 - x)) (jetG (1 - x)) (jetB (1 - x))

/-- `gradient.BlackYellow` (`color.py:518-521`). -/
noncomputable def blackYellow (x : ℝ) : Option (Rgb ℝ) :=
  mkRgb
    (2 * x * (1 - x) ^ 5 + 35 / 10 * x ^ 2 * (1 - x) ^ 3 + 21 / 10 * x * x * (1 - x) ^ 2 + 3 * x ^ 3 * (1 - x) ^ 2 +
      x ^ (1 / 2 : ℝ) * (1 - (1 - x) ^ 2))
    (15 / 10 * x ^ 2 * (1 - x) ^ 3 - 8 / 10 * x ^ 3 * (1 - x) ^ 2 + 2 * x ^ 4 * (1 - x) + x ^ 4)
    (5 * x * (1 - x) ^ 5 - 5 / 10 * x ^ 2 * (1 - x) ^ 3 + 3 / 10 * x * x * (1 - x) ^ 2 + 5 * x ^ 3 * (1 - x) ^ 2 +
      5 / 10 * x ^ 6)

/-- `gradient.YellowBlack` (`color.py:522-525`). -/
noncomputable def yellowBlack (x : ℝ) : Option (Rgb ℝ) :=
  mkRgb
    (2 * (1 - x) * x ^ 5 + 35 / 10 * (1 - x) ^ 2 * x ^ 3 + 21 / 10 * (1 - x) * (1 - x) * x ^ 2 +
      3 * (1 - x) ^ 3 * x ^ 2 + (1 - x) ^ (1 / 2 : ℝ) * (1 - x ^ 2))
    (15 / 10 * (1 - x) ^ 2 * x ^ 3 - 8 / 10 * (1 - x) ^ 3 * x ^ 2 + 2 * (1 - x) ^ 4 * x + (1 - x) ^ 4)
    (5 * (1 - x) * x ^ 5 - 5 / 10 * (1 - x) ^ 2 * x ^ 3 + 3 / 10 * (1 - x) * (1 - x) * x ^ 2 +
      5 * (1 - x) ^ 3 * x ^ 2 + 5 / 10 * (1 - x) ^ 6)

/-- `gradient.Rainbow`, `gradient.ReverseRainbow`, `gradient.Hue`, `gradient.ReverseHue` (`color.py:544-547`). -/
def rainbow (x : K) : Option (Hsb K) := linHsb ⟨0, 1, 1⟩ ⟨2 / 3, 1, 1⟩ x
def reverseRainbow (x : K) : Option (Hsb K) := linHsb ⟨2 / 3, 1, 1⟩ ⟨0, 1, 1⟩ x
def hue (x : K) : Option (Hsb K) := linHsb ⟨0, 1, 1⟩ ⟨1, 1, 1⟩ x
def reverseHue (x : K) : Option (Hsb K) := linHsb ⟨1, 1, 1⟩ ⟨0, 1, 1⟩ x

/-- `rgbgradient(gradient).getcolor` for an hsb gradient (`color.py:490-499`). -/
def rgbOf [FloorRing K] (g : K → Option (Hsb K)) (x : K) : Option (Rgb K) := (g x).bind Hsb.rgb

/-- `cmykgradient(gradient).getcolor` for an hsb gradient (`color.py:502-511`). -/
def cmykOfHsb [FloorRing K] (d : Device K) (g : K → Option (Hsb K)) (x : K) : Option (Cmyk K) :=
  (g x).bind (Hsb.cmyk d)

/-- `cmykgradient(gradient).getcolor` for an rgb gradient (`color.py:502-511`). -/
def cmykOfRgb (d : Device K) (g : K → Option (Rgb K)) (x : K) : Option (Cmyk K) := (g x).bind (Rgb.cmyk d)

end PyX.Color
