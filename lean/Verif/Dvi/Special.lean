import Verif.Dvi.Model
import Verif.Color.Model
import Verif.Trafo.Model
import Verif.Font.AfmProps

/-!
# C154: specials in DVI files (`pyx/dvi/dvifile.py:114-124, 223-320, 428-430, 463-467`)

A page is the list of the texts, rules and specials with their positions which C28 is about (`Dvi.Out`).  Here the canvas is made of it, with its groups.
Numbers are reals; `float` and `int` are any functions.  Exceptions are `none`.
-/

set_option linter.unusedSectionVars false
set_option linter.unusedSimpArgs false

namespace PyX.Dvi.Special

noncomputable section

open PyX.Afm (words)

abbrev Str := List Char
abbrev Pt := ℝ × ℝ

/-- The colors a text can have. -/
inductive Col
  | gray (c : Color.Gray ℝ)
  | rgb (c : Color.Rgb ℝ)
  | hsb (c : Color.Hsb ℝ)
  | cmyk (c : Color.Cmyk ℝ)

/-- The color models (`dvifile.py:262`). -/
inductive Model
  | gray
  | rgb
  | hsb
  | cmyk
deriving DecidableEq

/-- `float`, `int` and the attributes of the color classes (`color.cmyk.Red`, …). -/
structure Env where
  flt : Str → Option ℝ
  int : Str → Option ℤ
  named : Model → Str → Option Col

/-- The constructors of colors (`color.py:73-79, 116-127, 192-203, 232-246`): missing arguments are zero, more arguments are an error. -/
def mkCol : Model → List ℝ → Option Col
  | .gray, [] => (Color.mkGray 0).map .gray
  | .gray, [g] => (Color.mkGray g).map .gray
  | .rgb, [] => (Color.mkRgb 0 0 0).map .rgb
  | .rgb, [r] => (Color.mkRgb r 0 0).map .rgb
  | .rgb, [r, g] => (Color.mkRgb r g 0).map .rgb
  | .rgb, [r, g, b] => (Color.mkRgb r g b).map .rgb
  | .hsb, [] => (Color.mkHsb 0 0 0).map .hsb
  | .hsb, [h] => (Color.mkHsb h 0 0).map .hsb
  | .hsb, [h, s] => (Color.mkHsb h s 0).map .hsb
  | .hsb, [h, s, b] => (Color.mkHsb h s b).map .hsb
  | .cmyk, [] => (Color.mkCmyk 0 0 0 0).map .cmyk
  | .cmyk, [c] => (Color.mkCmyk c 0 0 0).map .cmyk
  | .cmyk, [c, m] => (Color.mkCmyk c m 0 0).map .cmyk
  | .cmyk, [c, m, y] => (Color.mkCmyk c m y 0).map .cmyk
  | .cmyk, [c, m, y, k] => (Color.mkCmyk c m y k).map .cmyk
  | _, _ => none

/-! ## Numbers in the argument of `pyxcolor` -/

/-- The mantissa at the beginning of a text (`dvifile.py:267`): `(\d+\.\d*)|(\d*\.\d+)|(\d+)`, and what follows. -/
def mantissa (s : Str) : Option (Str × Str) :=
  let ds := s.takeWhile Char.isDigit
  let r := s.dropWhile Char.isDigit
  match r with
  | '.' :: r' =>
    let fs := r'.takeWhile Char.isDigit
    if ds = [] ∧ fs = [] then none else some (ds ++ '.' :: fs, r'.dropWhile Char.isDigit)
  | _ => if ds = [] then none else some (ds, r)

/-- `([eE][+-]\d+)?`: what follows the exponent. -/
def dropExp (s : Str) : Str :=
  match s with
  | e :: sg :: r => if (e = 'e' ∨ e = 'E') ∧ (sg = '+' ∨ sg = '-') ∧ r.takeWhile Char.isDigit ≠ [] then r.dropWhile Char.isDigit else s
  | _ => s

/-- `[+-]?` -/
def dropSign : Str → Str
  | c :: s => if c = '+' ∨ c = '-' then s else c :: s
  | [] => []

/-- `numpat.findall` (`dvifile.py:268`): `x[0]` is the first group, the mantissa; with fuel. -/
def findall : ℕ → Str → List Str
  | 0, _ => []
  | _, [] => []
  | n + 1, c :: s => match mantissa (dropSign (c :: s)) with
    | some (m, r) => m :: findall n (dropExp r)
    | none => findall n s

/-- Removing a prefix if it is there. -/
def opt (p s : Str) : Str := if p.isPrefixOf s then s.drop p.length else s

/-- The names of the models in the pattern (`dvifile.py:262`). -/
def models : List (Str × Model) := [("cmyk".toList, .cmyk), ("rgb".toList, .rgb), ("grey".toList, .gray), ("gray".toList, .gray), ("hsb".toList, .hsb)]

/-- `pyxcolor` (`dvifile.py:259-279`). -/
def pyxcolor (E : Env) (s : Str) : Option Col :=
  let s := opt "color.".toList (opt "pyx.".toList s)
  match models.find? fun m => m.1.isPrefixOf s with
  | none => none
  | some (n, m) =>
    match opt ".".toList (s.drop n.length) with
    | [] => none
    | '(' :: r => ((findall (r.length + 1) ('(' :: r)).mapM E.flt).bind (mkCol m)
    | arg => E.named m arg

/-! ## Commands -/

/-- The kinds of colors (`dvifile.py:241-259`). -/
inductive Kind
  | model (m : Model) (n : ℕ)
  | rgb255
  | texnamed
  | pyxcolor
deriving DecidableEq

def kinds : List (Str × Kind) :=
  [("cmyk".toList, .model .cmyk 4), ("gray".toList, .model .gray 1), ("hsb".toList, .model .hsb 3), ("rgb".toList, .model .rgb 3), ("RGB".toList, .rgb255),
   ("texnamed".toList, .texnamed), ("pyxcolor".toList, .pyxcolor)]

/-- Values in a dictionary given as a list. -/
def get {α : Type} (l : List (Str × α)) (k : Str) : Option α := (l.find? fun x => x.1 = k).map Prod.snd

/-- The first `n` arguments as numbers. -/
def numbers (f : Str → Option ℝ) (n : ℕ) (args : List Str) : Option (List ℝ) := if args.length < n then none else (args.take n).mapM f

/-- The color of `color_begin` (`dvifile.py:241-279`). -/
def colour (E : Env) : List Str → Option Col
  | [] => none
  | a :: args => match get kinds a with
    | none => none
    | some (.model m n) => (numbers E.flt n args).bind (mkCol m)
    | some .rgb255 => (numbers (fun s => (E.int s).map fun (i : ℤ) => (i : ℝ) / 255) 3 args).bind (mkCol .rgb)
    | some .texnamed => args.head?.bind (E.named .cmyk)
    | some .pyxcolor => pyxcolor E (Afm.join [' '] args)

/-- An EPS file to be included (`dvifile.py:291-308`). -/
structure Eps where
  file : Str
  llx : ℝ
  lly : ℝ
  urx : ℝ
  ury : ℝ
  width : Option ℝ
  height : Option ℝ
  clip : Option ℤ
  x : ℝ
  y : ℝ

/-- What a canvas is made with (`beginsubpage([c])`, `beginsubpage([trafo])`). -/
inductive Attr
  | color (c : Col)
  | trafo (t : Trafo ℝ)

/-- What is put into canvases. -/
inductive Elem
  | text (font : ℕ) (x y : ℝ) (chars : List ℕ)
  | rule (x y w h : ℝ)
  | eps (e : Eps)

/-- What happens to the canvas of a page. -/
inductive In
  | elem (e : Elem)
  | begin_ (a : Attr)
  | end_
  | marker (n : Str) (p : Pt)

/-- `name, value = arg.split("=")` (`dvifile.py:295`). -/
def assign (s : Str) : Option (Str × Str) :=
  let name := s.takeWhile (fun c => c ≠ '=')
  match s.dropWhile (fun c => c ≠ '=') with
  | [] => none
  | _ :: value => if '=' ∈ value then none else some (name, value)

/-- An optional value. -/
def optional {α : Type} (f : Str → Option α) (d : List (Str × Str)) (k : Str) : Option (Option α) :=
  match get d k with
  | none => some none
  | some v => (f v).map some

/-- `epsinclude` (`dvifile.py:291-308`): a later argument replaces an earlier one with the same name. -/
def epsinclude (E : Env) (args : List Str) (x y : ℝ) : Option Eps := do
  let d := (← args.mapM assign).reverse
  let file ← get d "file".toList
  let llx ← (get d "llx".toList).bind E.flt
  let lly ← (get d "lly".toList).bind E.flt
  let urx ← (get d "urx".toList).bind E.flt
  let ury ← (get d "ury".toList).bind E.flt
  let width ← optional E.flt d "width".toList
  let height ← optional E.flt d "height".toList
  let clip ← optional E.int d "clip".toList
  some ⟨file, llx, lly, urx, ury, width, height, clip, x, y⟩

/-- The commands. -/
inductive Command
  | color_begin
  | color_end
  | rotate_begin
  | rotate_end
  | scale_begin
  | scale_end
  | epsinclude
  | marker
deriving DecidableEq

def commands : List (Str × Command) :=
  [("color_begin".toList, .color_begin), ("color_end".toList, .color_end), ("rotate_begin".toList, .rotate_begin), ("rotate_end".toList, .rotate_end),
   ("scale_begin".toList, .scale_begin), ("scale_end".toList, .scale_end), ("epsinclude".toList, .epsinclude), ("marker".toList, .marker)]

/-- The characters of markers (`dvifile.py:313`). -/
def markerChar (c : Char) : Bool := c.isAlphanum || c = '@'

/-- `special` (`dvifile.py:239-320`); `s`: the text after `PyX:`; whether the name of a marker is new is tested by `step`. -/
def parse (E : Env) (s : Str) (x y : ℝ) : Option In :=
  match words s with
  | [] => none
  | c :: args => match get commands c with
    | none => none
    | some .color_begin => (colour E args).map fun c => .begin_ (.color c)
    | some .color_end => some .end_
    | some .rotate_begin => do
      let a ← args.head?.bind E.flt
      (Trafo.rotate a (some x) (some y)).map fun t => .begin_ (.trafo t)
    | some .rotate_end => some .end_
    | some .scale_begin => match numbers E.flt 2 args with
      | some [sx, sy] => (Trafo.scale sx (some sy) (some x) (some y)).map fun t => .begin_ (.trafo t)
      | _ => none
    | some .scale_end => some .end_
    | some .epsinclude => (epsinclude E args x y).map fun e => .elem (.eps e)
    | some .marker => match args with
      | [n] => if n.all markerChar then some (.marker n (x, y)) else none
      | _ => none

/-- The items of a page. -/
def input (E : Env) : Out ℝ → Option In
  | .text f x y cs => some (.elem (.text f x y cs))
  | .rule x y w h => some (.elem (.rule x y w h))
  | .special s x y => parse E ((s.drop 4).map Char.ofNat) x y

/-! ## Canvases -/

/-- What a canvas contains. -/
inductive Node
  | elem (e : Elem)
  | group (a : Attr) (ns : List Node)

/-- A canvas being filled, with its markers. -/
structure Frame where
  attr : Attr
  items : List Node
  marks : Str → Option Pt

/-- The transformation of a canvas with one attribute. -/
def Attr.toTrafo : Attr → Trafo ℝ
  | .color _ => Trafo.one
  | .trafo t => t

/-- Markers of a group become those of the canvas around it (`dvifile.py:122-123`). -/
def merge (a : Attr) (inner outer : Str → Option Pt) (n : Str) : Option Pt :=
  match inner n with
  | some v => some (a.toTrafo.apply v)
  | none => outer n

def setMark (marks : Str → Option Pt) (n : Str) (p : Pt) (k : Str) : Option Pt := if k = n then some p else marks k

/-- `beginsubpage`, `endsubpage`, `insert` and `marker` (`dvifile.py:114-124, 309-318`); first comes `actpage`, then its `parent` and so on.  The page has no
parent (`AttributeError`). -/
def step : In → List Frame → Option (List Frame)
  | .elem e, f :: fs => some ({ f with items := f.items ++ [.elem e] } :: fs)
  | .begin_ a, fs => some (⟨a, [], fun _ => none⟩ :: fs)
  | .end_, f :: g :: fs => some ({ g with items := g.items ++ [.group f.attr f.items], marks := merge f.attr f.marks g.marks } :: fs)
  | .marker n p, f :: fs => match f.marks n with
    | some _ => none
    | none => some ({ f with marks := setMark f.marks n p } :: fs)
  | _, _ => none

def steps : List In → List Frame → Option (List Frame)
  | [], fs => some fs
  | i :: l, fs => (step i fs).bind (steps l)

/-- The canvas at the beginning (`dvifile.py:428-429`). -/
def root : Frame := ⟨.trafo Trafo.one, [], fun _ => none⟩

/-- `readpage`: at the end of the page, `self.actpage` is returned (`dvifile.py:467`). -/
def run (l : List In) : Option Frame := (steps l [root]).bind List.head?

/-- The page of a DVI file. -/
def page (E : Env) (l : List (Out ℝ)) : Option Frame := (l.mapM (input E)).bind run

/-! ## What is expected -/

/-- The elements of a page, each with the groups it is in, innermost first. -/
def enclosed : List Attr → List In → List (Elem × List Attr)
  | _, [] => []
  | st, .elem e :: l => (e, st) :: enclosed st l
  | st, .begin_ a :: l => enclosed (a :: st) l
  | st, .end_ :: l => enclosed st.tail l
  | st, .marker _ _ :: l => enclosed st l

/-- The markers of a page, each with the groups it is in. -/
def markers : List Attr → List In → List (Str × List Attr × Pt)
  | _, [] => []
  | st, .elem _ :: l => markers st l
  | st, .begin_ a :: l => markers (a :: st) l
  | st, .end_ :: l => markers st.tail l
  | st, .marker n p :: l => (n, st, p) :: markers st l

/-- The number of groups which are open. -/
def depth : ℕ → List In → Option ℕ
  | d, [] => some d
  | d, .elem _ :: l => depth d l
  | d, .begin_ _ :: l => depth (d + 1) l
  | 0, .end_ :: _ => none
  | d + 1, .end_ :: l => depth d l
  | d, .marker _ _ :: l => depth d l

mutual
/-- The elements of a canvas, each with the canvases it is in, innermost first. -/
def leaves : List Attr → Node → List (Elem × List Attr)
  | st, .elem e => [(e, st)]
  | st, .group a ns => leavesL (a :: st) ns
def leavesL : List Attr → List Node → List (Elem × List Attr)
  | _, [] => []
  | st, n :: ns => leaves st n ++ leavesL st ns
end

/-- A point inside groups, seen from outside: the innermost transformation comes first. -/
def outside (st : List Attr) (p : Pt) : Pt := st.foldl (fun p a => a.toTrafo.apply p) p

end

end PyX.Dvi.Special
