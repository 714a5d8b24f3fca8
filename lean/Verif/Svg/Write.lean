import Mathlib.Data.List.Basic
import Mathlib.Tactic.SplitIfs

/-!
# Writing SVG files (`svgwriter.py`): model and C148

Files are lists of characters (their UTF-8 encoding is not modelled).  The functions of Python's `xml.sax.saxutils` used by `SVGGenerator` are modelled as well.
-/

set_option linter.unusedSectionVars false

namespace PyX.Svg.Write

abbrev Str := List Char

/-! ## Model -/

/-- `str.replace` for one character. -/
def replace (c : Char) (by' : Str) (s : Str) : Str := s.flatMap fun x => if x = c then by' else [x]

/-- `escape` (`xml/sax/saxutils.py`). -/
def escape (s : Str) : Str := replace '<' "&lt;".toList (replace '>' "&gt;".toList (replace '&' "&amp;".toList s))

/-- `quoteattr` (`xml/sax/saxutils.py`). -/
def quoteattr (s : Str) : Str :=
  let d := replace '\t' "&#9;".toList (replace '\r' "&#13;".toList (replace '\n' "&#10;".toList (escape s)))
  if '"' ∈ d then
    if '\'' ∈ d then '"' :: (replace '"' "&quot;".toList d ++ ['"'])
    else '\'' :: (d ++ ['\''])
  else '"' :: (d ++ ['"'])

/-- Attributes: names and values. -/
abbrev Attrs := List (Str × Str)

/-- What is written: nothing, characters and something after them, or an element and something after it. -/
inductive Xml
  | nil
  | chars (s : Str) (rest : Xml)
  | elem (name : Str) (attrs : Attrs) (content rest : Xml)
  deriving DecidableEq

/-- An `SVGGenerator` (`svgwriter.py:83-89, 126-133`) with the state of its base class `XMLGenerator`. -/
structure Gen where
  out : Str
  pending : Bool
  undeclared : Attrs
  xlinkEnabled : Bool
  xlinkUsed : Bool
  indent : ℕ
  newline : Bool
  lastWasEnd : Bool
  deriving DecidableEq

inductive Err
  | assertion | xlink
  deriving DecidableEq

/-- `_finish_pending_start_element`. -/
def finish (g : Gen) : Gen := if g.pending then { g with out := g.out ++ ['>'], pending := false } else g

/-- `characters`. -/
def characters (g : Gen) (s : Str) : Gen := if s = [] then g else { finish g with out := (finish g).out ++ escape s }

/-- `' %s=%s' % (name, quoteattr(value))`. -/
def attrText (a : Str × Str) : Str := ' ' :: (a.1 ++ '=' :: quoteattr a.2)

/-- `startElementNS` of the base class: namespaces not declared yet are written first. -/
def startNS (g : Gen) (name : Str) (attrs : Attrs) : Gen :=
  { finish g with
    out := (finish g).out ++ '<' :: (name ++ (g.undeclared.flatMap (fun d => ' ' :: (d.1 ++ "=\"".toList ++ d.2 ++ ['"'])) ++ attrs.flatMap attrText))
    undeclared := [], pending := true }

/-- `endElementNS` of the base class. -/
def endNS (g : Gen) (name : Str) : Gen :=
  if g.pending then { g with out := g.out ++ "/>".toList, pending := false }
  else { g with out := g.out ++ ("</".toList ++ name ++ ['>']) }

/-- `convertName` (`svgwriter.py:91-103`) for a name of an attribute: whether it is in the other namespace, or an exception.  The names of the elements of PyX have no colon. -/
def convertName (enabled : Bool) (name : Str) : Except Err Bool :=
  if ':' ∉ name then .ok false
  else if ¬ ("xlink:".toList <+: name ∧ ':' ∉ name.drop 6) then .error .assertion
  else if enabled then .ok true
  else .error .xlink

/-- `convertAttrs` (`svgwriter.py:105-106`): whether the other namespace is used. -/
def convertAttrs (enabled : Bool) : Attrs → Except Err Bool
  | [] => .ok false
  | a :: as =>
    match convertName enabled a.1 with
    | .error e => .error e
    | .ok b =>
      match convertAttrs enabled as with
      | .error e => .error e
      | .ok c => .ok (b || c)

def svgUri : Str := "http://www.w3.org/2000/svg".toList
def xlinkUri : Str := "http://www.w3.org/1999/xlink".toList

/-- The declarations. -/
def declarations (xlink : Bool) : Attrs := ("xmlns".toList, svgUri) :: if xlink then [("xmlns:xlink".toList, xlinkUri)] else []

def header : Str := "<?xml version=\"1.0\" encoding=\"utf-8\"?>\n".toList

/-- `startSVGDocument` (`svgwriter.py:126-133`). -/
def startDocument (xlink : Bool) : Gen := ⟨header, false, declarations xlink, xlink, false, 0, true, false⟩

/-- White space before a tag (`svgwriter.py:136-139, 155-157`). -/
def pad (g : Gen) : Gen := characters (if g.newline then g else characters g ['\n']) (List.replicate g.indent ' ')

def tspan : Str := "tspan".toList

/-- `startSVGElement` (`svgwriter.py:135-144`). -/
def start (g : Gen) (name : Str) (attrs : Attrs) : Except Err Gen :=
  let g1 := if name ≠ tspan then pad g else g
  match convertAttrs g.xlinkEnabled attrs with
  | .error e => .error e
  | .ok used =>
    let g2 := startNS { g1 with xlinkUsed := g1.xlinkUsed || used } name attrs
    .ok (if name ≠ tspan then { g2 with indent := g2.indent + 1, lastWasEnd := false, newline := false } else g2)

/-- `newline_and_tell` (`svgwriter.py:146-149`); the position is the length of the output. -/
def newlineAndTell (g : Gen) : Gen := { characters g ['\n'] with newline := true }

/-- `endSVGElement` (`svgwriter.py:151-161`). -/
def stop (g : Gen) (name : Str) : Gen :=
  let g1 := if name ≠ tspan then { g with indent := g.indent - 1 } else g
  let g2 := if name ≠ tspan ∧ g1.lastWasEnd then pad g1 else g1
  let g3 := endNS g2 name
  if name ≠ tspan then { g3 with lastWasEnd := true, newline := false } else g3

/-- Writing elements by the calls of the generator. -/
def emit (g : Gen) : Xml → Except Err Gen
  | .nil => .ok g
  | .chars s r => emit (characters g s) r
  | .elem n a c r =>
    match start g n a with
    | .error e => .error e
    | .ok g1 =>
      match emit g1 c with
      | .error e => .error e
      | .ok g2 => emit (stop g2 n) r

/-- The page: the output between two positions, and whether the other namespace has been used (`svgwriter.py:197-209`). -/
def writePage (page : Xml) : Except Err (Str × Bool) :=
  match start (startDocument true) "svg".toList [] with
  | .error e => .error e
  | .ok g1 =>
    match emit (newlineAndTell g1) page with
    | .error e => .error e
    | .ok g3 => .ok (((newlineAndTell g3).out).drop (newlineAndTell g1).out.length, (newlineAndTell g3).xlinkUsed)

/-- `registry.output` (`svgwriter.py:50-55`). -/
def writeDefs (g : Gen) (defs : Xml) : Except Err Gen := if defs = .nil then .ok g else emit g (.elem "defs".toList [] defs .nil)

/-- The file (`svgwriter.py:211-233`), where `defs` are the resources. -/
def write (attrs : Attrs) (defs page : Xml) : Except Err Str :=
  match writePage page with
  | .error e => .error e
  | .ok (data, used) =>
    match start (startDocument used) "svg".toList attrs with
    | .error e => .error e
    | .ok x1 =>
      match writeDefs x1 defs with
      | .error e => .error e
      | .ok x2 =>
        let x3 := { newlineAndTell x2 with out := (newlineAndTell x2).out ++ data }
        .ok (characters (stop x3 "svg".toList) ['\n']).out

/-! ## Specification: XML -/

/-- Text with the references of XML replaced by the characters. -/
def decode : Str → Option Str
  | [] => some []
  | '&' :: 'a' :: 'm' :: 'p' :: ';' :: r => (decode r).map ('&' :: ·)
  | '&' :: 'l' :: 't' :: ';' :: r => (decode r).map ('<' :: ·)
  | '&' :: 'g' :: 't' :: ';' :: r => (decode r).map ('>' :: ·)
  | '&' :: 'q' :: 'u' :: 'o' :: 't' :: ';' :: r => (decode r).map ('"' :: ·)
  | '&' :: '#' :: '1' :: '0' :: ';' :: r => (decode r).map ('\n' :: ·)
  | '&' :: '#' :: '1' :: '3' :: ';' :: r => (decode r).map ('\r' :: ·)
  | '&' :: '#' :: '9' :: ';' :: r => (decode r).map ('\t' :: ·)
  | c :: r => if c = '&' then none else (decode r).map (c :: ·)

/-- Text standing for characters: no markup, references resolved. -/
def Data (s u : Str) : Prop := '<' ∉ u ∧ '>' ∉ u ∧ decode u = some s

/-- A value in quotes: neither the quote nor characters which a reader of XML replaces by spaces. -/
def Value (s u : Str) : Prop := ∃ q v, (q = '"' ∨ q = '\'') ∧ u = q :: (v ++ [q]) ∧ q ∉ v ∧ '\n' ∉ v ∧ '\r' ∉ v ∧ '\t' ∉ v ∧ Data s v

/-- The attributes of a tag. -/
inductive Attributes : Attrs → Str → Prop
  | nil : Attributes [] []
  | cons {n s u as v} : Value s u → Attributes as v → Attributes ((n, s) :: as) (' ' :: (n ++ '=' :: (u ++ v)))

/-- The content of an element as XML: the productions `content`, `element`, `EmptyElemTag`, `STag`, `ETag`. -/
inductive Content : Xml → Str → Prop
  | nil : Content .nil []
  | chars {s u r v} : Data s u → Content r v → Content (.chars s r) (u ++ v)
  | empty {n a r u v} : Attributes a u → Content r v → Content (.elem n a .nil r) ('<' :: (n ++ u ++ "/>".toList ++ v))
  | elem {n a c r u w v} : Attributes a u → Content c w → Content r v → Content (.elem n a c r) ('<' :: (n ++ u ++ ['>'] ++ w ++ "</".toList ++ n ++ ['>'] ++ v))

/-- White space. -/
def White (s : Str) : Prop := ∀ c ∈ s, c = ' ' ∨ c = '\n'

instance (s : Str) : Decidable (White s) := inferInstanceAs (Decidable (∀ c ∈ s, c = ' ' ∨ c = '\n'))

def textName : Str := "text".toList

/-- What is meant: white space is without meaning, except for that in an element `text`. -/
def meaning : Xml → Xml
  | .nil => .nil
  | .chars s r => if White s then meaning r else .chars s (meaning r)
  | .elem n a c r => if n = textName then .elem n a c (meaning r) else .elem n a (meaning c) (meaning r)

/-- The content of texts: characters and elements `tspan`. -/
def Inline : Xml → Prop
  | .nil => True
  | .chars s r => s ≠ [] ∧ Inline r
  | .elem n _ c r => n = tspan ∧ Inline c ∧ Inline r

/-- What PyX writes elsewhere: elements, where those with the name `text` contain texts. -/
def Block : Xml → Prop
  | .nil => True
  | .chars _ _ => False
  | .elem n _ c r => n ≠ tspan ∧ (if n = textName then Inline c else Block c) ∧ Block r

/-- Names of all attributes. -/
def names : Xml → List Str
  | .nil => []
  | .chars _ r => names r
  | .elem _ a c r => a.map (·.1) ++ names c ++ names r

/-- One after the other. -/
def append : Xml → Xml → Xml
  | .nil, y => y
  | .chars s r, y => .chars s (append r y)
  | .elem n a c r, y => .elem n a c (append r y)

end PyX.Svg.Write
