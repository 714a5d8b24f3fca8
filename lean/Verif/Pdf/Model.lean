import Verif.Texter.Model

/-!
# Model of the file structure in `pyx/pdfwriter.py`

* The file is a list of characters (one per byte).
* An object type together with its id is a key of an arbitrary type `κ`. The text written by `object.write` is given by a
  function of the reference numbers the object asks for, so every kind of PDF object is covered.
* `merge` of objects is a parameter of the registry; the default `merge` does nothing, `PDFannotations.merge` and `PDFform.merge`
  append the references of the other object (`pyx/pdfwriter.py:137-138,214-216,229-231`).
* Exceptions (`KeyError` for an unknown object) are `none`.
-/

namespace PyX.Pdf
open PyX.Texter (str)

variable {κ : Type} [DecidableEq κ]

/-- A PDF object: its type and id; the objects it refers to, in the order of `getrefno` calls; what it writes, given the
reference numbers; whether `merge` appends references. -/
structure Obj (κ : Type) where
  key : κ
  refs : List κ
  body : List Nat → List Char
  merges : Bool

/-- `PDFobject.merge`, `PDFannotations.merge`, `PDFform.merge` (`pyx/pdfwriter.py:137-138,214-216,229-231`). -/
def Obj.merge (self other : Obj κ) : Obj κ := if self.merges then { self with refs := self.refs ++ other.refs } else self

/-- `PDFregistry.add` (`pyx/pdfwriter.py:52-59`). The dictionary `types` and the list `objects` hold the same objects, so the list is enough:
merging changes the object in place. -/
def add (objects : List (Obj κ)) (o : Obj κ) : List (Obj κ) :=
  if objects.any (fun p => p.key = o.key) then objects.map fun p => if p.key = o.key then p.merge o else p
  else objects ++ [o]

/-- `PDFregistry.mergeregistry` (`pyx/pdfwriter.py:67-71`): add all objects of the other registry. -/
def mergeregistry (objects other : List (Obj κ)) : List (Obj κ) := other.foldl add objects

/-- `PDFregistry.getrefno` (`pyx/pdfwriter.py:61-65`) after the numbering of l. 75-78: the position in `objects` plus one. A
merged registry asks the registry it was merged into. -/
def getrefno (objects : List (Obj κ)) (key : κ) : Option Nat :=
  let i := objects.findIdx fun p => decide (p.key = key)
  if i < objects.length then some (i + 1) else none

/-- The text of one object (`pyx/pdfwriter.py:84-86`). -/
def objText (objects : List (Obj κ)) (o : Obj κ) (refno : Nat) : Option (List Char) := do
  let nos ← o.refs.mapM (getrefno objects)
  some (str refno ++ " 0 obj\n".toList ++ o.body nos ++ "endobj\n".toList)

/-- The loop writing the objects (`pyx/pdfwriter.py:81-86`): file and positions. -/
def writeObjs (all : List (Obj κ)) : List (Obj κ) → (refno : Nat) → (file : List Char) → (poses : List Nat) → Option (List Char × List Nat)
  | [], _, file, poses => some (file, poses)
  | o :: os, refno, file, poses => do
    let t ← objText all o refno
    writeObjs all os (refno + 1) (file ++ t) (poses ++ [file.length])

/-- `"%010i" % n` -/
def pad10 (n : Nat) : List Char := List.replicate (10 - (str n).length) '0' ++ str n

/-- One line of the cross-reference table (`pyx/pdfwriter.py:94-95`). -/
def xrefLine (pos : Nat) : List Char := pad10 pos ++ " 00000 n \n".toList

/-- `PDFregistry.write` (`pyx/pdfwriter.py:73-106`), beginning with the file written so far (`pyx/pdfwriter.py:383`). -/
def write (objects : List (Obj κ)) (head : List Char) (catalog pdfinfo : κ) : Option (List Char) := do
  let (file, poses) ← writeObjs objects objects 1 head []
  let xrefpos := file.length
  let size := objects.length + 1
  let root ← getrefno objects catalog
  let info ← getrefno objects pdfinfo
  some (file ++ ("xref\n".toList ++ "0 ".toList ++ str size ++ "\n".toList ++ "0000000000 65535 f \n".toList ++ (poses.map xrefLine).flatten) ++
    ("trailer\n<<\n/Size ".toList ++ str size ++ "\n/Root ".toList ++ str root ++ " 0 R\n/Info ".toList ++ str info ++ " 0 R\n>>\n".toList) ++
    ("startxref\n".toList ++ str xrefpos ++ "\n%%EOF\n".toList))

/-- Registrations: single objects, or a page registry (itself filled by registrations of single objects) merged into the global one
(`pyx/pdfwriter.py:272-284`). -/
inductive Reg (κ : Type) where
  | add (o : Obj κ)
  | page (os : List (Obj κ))

/-- One registration in the global registry. -/
def register (objects : List (Obj κ)) : Reg κ → List (Obj κ)
  | .add o => add objects o
  | .page os => mergeregistry objects (os.foldl add [])

/-- The global registry after some registrations. -/
def registered (rs : List (Reg κ)) : List (Obj κ) := rs.foldl register []

/-! ## Strings and dates -/

/-- `"%03o" % n` -/
def oct3 (n : Nat) : List Char := let s := Nat.toDigits 8 n; List.replicate (3 - s.length) '0' ++ s

/-- `pdfstring` (`pyx/pdfwriter.py:184-191`), for a string given by its code points -/
def pdfstring (s : List Nat) : List Char :=
  (s.map fun c => if 32 ≤ c ∧ c ≤ 127 ∧ Char.ofNat c ∉ "()[]<>\\".toList then [Char.ofNat c] else '\\' :: oct3 c).flatten

/-- `"%02i" % n` -/
def pad2 (n : Nat) : List Char := List.replicate (2 - (str n).length) '0' ++ str n

/-- The time zone (`pyx/pdfwriter.py:175-181`) for `time.timezone`, the seconds west of UTC. The divisions are exact for whole
minutes and truncated otherwise. -/
def timezone (tz : Int) : List Char :=
  let m := tz.natAbs / 60
  if tz < 0 then '-' :: (pad2 (m / 60) ++ ['\''] ++ pad2 (m % 60) ++ ['\''])
  else if tz > 0 then '+' :: (pad2 (m / 60) ++ ['\''] ++ pad2 (m % 60) ++ ['\''])
  else "Z00'00'".toList

end PyX.Pdf
