import Verif.Attr.Props
import Mathlib.Algebra.Order.Field.Basic
import Mathlib.Algebra.BigOperators.Group.List.Basic
import Mathlib.Tactic.Ring
import Mathlib.Tactic.Linarith
import Mathlib.Tactic.FieldSimp
import Mathlib.Tactic.NormNum

/-!
# C132: text attributes (`text.py:389-615, 1195-1208, 1295-1303`): model

The expressions made by the `apply` methods are given by what TeX does with them: a computation on boxes with registers.
-/

set_option linter.unusedSectionVars false

namespace PyX.TextAttr

open PyX.Attr

/-- The classes of text attributes (`text.py:395-615`). -/
inductive Cls
  | boxhalign | flushhalign | halign | mathmode | phantom | parbox | valign | vshift | size | localattr
  deriving DecidableEq

/-- The text attributes (`text.py:413-615`). `vshift` has the ratio and the height string (a number), `mathaxis` is `vshift.mathaxis`. The base line of a `parbox` is a number. -/
inductive TA (K : Type)
  | boxhalign (h : K)
  | flushhalign (f : K)
  | halign (h f : K)
  | mathmode
  | phantom
  | parbox (w : K) (baseline : ℕ)
  | valign (v : K)
  | vshift (r : K) (heightstr : ℕ)
  | mathaxis
  | size (n : ℕ)
  | clear (c : Cls)
  | clearAll

variable {K : Type}

/-- Class hierarchy and constructor arguments (`text.py:413, 417, 428, 432, 443, 448, 468, 472, 484, 496, 505, 529, 533, 546, 549, 554, 565, 585, 591`). -/
def sys (K : Type) : Sys (TA K) Cls where
  inst
    | .boxhalign _, c => c = .boxhalign || c = .localattr
    | .flushhalign _, c => c = .flushhalign || c = .localattr
    | .halign _ _, c => c = .halign || c = .boxhalign || c = .flushhalign || c = .localattr
    | .mathmode, c => c = .mathmode || c = .localattr
    | .phantom, c => c = .phantom || c = .localattr
    | .parbox _ _, c => c = .parbox
    | .valign _, c => c = .valign
    | .vshift _ _, c => c = .vshift
    | .mathaxis, c => c = .vshift
    | .size _, c => c = .size
    | .clear _, _ => false
    | .clearAll, _ => false
  kind
    | .boxhalign _ => .excl .boxhalign
    | .flushhalign _ => .excl .flushhalign
    | .halign _ _ => .excl .halign
    | .mathmode => .excl .mathmode
    | .phantom => .plain
    | .parbox _ _ => .sortBeforeExcl .parbox [.localattr]
    | .valign _ => .sortBeforeExcl .valign [.parbox, .localattr]
    | .vshift _ _ => .sortBefore [.valign, .parbox, .localattr]
    | .mathaxis => .sortBefore [.valign, .parbox, .localattr]
    | .size _ => .sortBefore [.mathmode, .vshift]
    | .clear c => .clearClass c
    | .clearAll => .clearAll

/-! ## TeX -/

/-- The extents of a box. -/
structure Box (K : Type) where
  wd : K
  ht : K
  dp : K

/-- A broken paragraph: the height of its first line, its total height and the depth of its last line. -/
structure Par (K : Type) where
  first : K
  total : K
  last : K

/-- What is restored at the end of a group: size, math mode, the alignment in paragraphs and the registers of the attributes. -/
structure Loc (K : Type) where
  size : ℕ
  math : Bool
  flush : Option K
  dimVAlign : K
  boxVAlign : Box K
  dimVShift : K
  box0 : Box K
  dimVBox : K
  boxVBox : Box K

/-- The state of TeX: `\PyXBoxHAlign` is set globally. -/
structure St (K : Type) where
  halign : K
  loc : Loc K

/-- An expression: it adds material with certain extents and changes the state. -/
abbrev Tex (K : Type) := St K → Box K × St K

/-- What TeX knows: the height of a string in a size, the height of the math axis, and how paragraphs are broken (from the width and the extents of the material). -/
structure Fonts (K : Type) where
  zero : ℕ → ℕ → K
  axis : ℕ → K
  par : K → Option K → Box K → Par K

section
variable [Field K]

/-- A group: `\hbox{{…}}`, `{…}`. -/
def group (body : Tex K) : Tex K := fun s => ((body s).1, { (body s).2 with loc := s.loc })

/-- `\lower d \box r`. -/
def lower (d : K) (b : Box K) : Box K := ⟨b.wd, b.ht - d, b.dp + d⟩

/-- The paragraph in `\vtop`, `\vbox`: `\hsize` and a group. -/
def vtop (f : Fonts K) (w : K) (body : Tex K) : Tex K := fun s =>
  let r := group body s
  let p := f.par w (body s).2.loc.flush r.1
  (⟨w, p.first, p.total - p.first⟩, r.2)

def vbox (f : Fonts K) (w : K) (body : Tex K) : Tex K := fun s =>
  let r := group body s
  let p := f.par w (body s).2.loc.flush r.1
  (⟨w, p.total - p.last, p.last⟩, r.2)

/-- `self.width` of a `parbox_pt` (`text.py:503`): in TeX points; `scale` is `unit.scale["x"]`. -/
def parWidth [OfNat K 72] (c scale width : K) : K := width * c / (scale * 72)

/-- `valign.apply` (`text.py:535-536`). -/
def applyVAlign (v : K) (body : Tex K) : Tex K := fun s0 =>
  let r := group body s0
  let s1 : St K := { r.2 with loc := { r.2.loc with boxVAlign := r.1 } }
  let s2 : St K := { s1 with loc := { s1.loc with dimVAlign := (1 - v) * s1.loc.boxVAlign.ht } }
  let s3 : St K := { s2 with loc := { s2.loc with dimVAlign := s2.loc.dimVAlign + -v * s2.loc.boxVAlign.dp } }
  (lower s3.loc.dimVAlign s3.loc.boxVAlign, s3)

/-- `_vshift.apply` (`text.py:551-552`) behind `setheightexpr` (`text.py:562-563, 568-569`) which sets `\PyXDimenVShift`. -/
def applyVShift (height : ℕ → K) (r : K) (body : Tex K) : Tex K := fun s0 =>
  let s1 : St K := { s0 with loc := { s0.loc with box0 := ⟨0, height s0.loc.size, 0⟩ } }
  let s2 : St K := { s1 with loc := { s1.loc with dimVShift := r * s1.loc.box0.ht } }
  let b := group body s2
  let s3 : St K := { b.2 with loc := { b.2.loc with box0 := b.1 } }
  (lower s3.loc.dimVShift s3.loc.box0, s3)

/-- `parbox_pt.apply` with the base line in the middle (`text.py:510-511`). -/
def applyMiddle (f : Fonts K) (w : K) (body : Tex K) : Tex K := fun s0 =>
  let r := group (vtop f w body) s0
  let s1 : St K := { r.2 with loc := { r.2.loc with boxVBox := r.1 } }
  let s2 : St K := { s1 with loc := { s1.loc with dimVBox := 1 / 2 * s1.loc.boxVBox.dp } }
  let q := group (vbox f w body) s2
  let s3 : St K := { q.2 with loc := { q.2.loc with boxVBox := q.1 } }
  let s4 : St K := { s3 with loc := { s3.loc with dimVBox := s3.loc.dimVBox + -(1 / 2) * s3.loc.boxVBox.dp } }
  (lower s4.loc.dimVBox s4.loc.boxVBox, s4)

/-- The `apply` methods (`text.py:419-420, 434-435, 450-451, 474-475, 487-488, 507-515, 535-536, 551-552, 602-603`). An invalid base line makes the expression `None` (the exception is not raised), which is typeset as the word `None` = `word`. -/
def apply (f : Fonts K) (word : Tex K) : TA K → Tex K → Tex K
  | .boxhalign h, body => fun s => body { s with halign := h }
  | .flushhalign x, body => fun s => body { s with loc := { s.loc with flush := some x } }
  | .halign h x, body => fun s => body { halign := h, loc := { s.loc with flush := some x } }
  | .mathmode, body => fun s =>
    let r := group body { s with loc := { s.loc with math := true } }
    (r.1, { r.2 with loc := s.loc })
  | .phantom, body => group body
  | .parbox w 1, body => vtop f w body
  | .parbox w 2, body => applyMiddle f w body
  | .parbox w 3, body => vbox f w body
  | .parbox _ _, _ => word
  | .valign v, body => applyVAlign v body
  | .vshift r h, body => applyVShift (f.zero h) r body
  | .mathaxis, body => applyVShift f.axis 1 body
  | .size n, body => fun s => body { s with loc := { s.loc with size := n } }
  | .clear _, body => body
  | .clearAll, body => body

/-- `for ta in textattrs[::-1]: expr = ta.apply(expr)` (`text.py:1302-1303`). -/
def expr (f : Fonts K) (word : Tex K) (l : List (TA K)) (content : Tex K) : Tex K := l.foldr (apply f word) content

/-- The extents TeX reports: left, right, height and depth. -/
structure Extents (K : Type) where
  lt : K
  rt : K
  ht : K
  dp : K
  deriving DecidableEq

/-- `\ProcessPyXBox` (`text.py:1195-1208`): the extents, and the state afterwards. -/
def process (body : Tex K) (s : St K) : Extents K × St K :=
  let r := group body s
  (⟨r.2.halign * r.1.wd, r.1.wd - r.2.halign * r.1.wd, r.1.ht, r.1.dp⟩, { r.2 with halign := 0 })

/-- A text (`text.py:1295-1305`). -/
def typeset (f : Fonts K) (word : Tex K) (attrs : List (TA K)) (content : Tex K) (s : St K) : Extents K × St K :=
  process (expr f word (mergeattrs (sys K) attrs) content) s

/-- The corners of the box of a text at `(x, y)` (`text.py:842-845`): the lower left and the upper right one; `scale` is `unit.scale["x"]`. -/
def corners (scale x y : K) (e : Extents K) : (K × K) × (K × K) :=
  ((x - e.lt * scale, y - e.dp * scale), (x - e.lt * scale + (e.lt + e.rt) * scale, y - e.dp * scale + (e.dp + e.ht) * scale))

end

/-! ## Sizes -/

/-- `size.__init__` with a list of sizes (`text.py:588-600`), where `None` is `none`: the size, or an exception. Python takes indices below zero from the end. -/
def sizeOf {S : Type} [DecidableEq S] (sizeindex : Option ℤ) (sizename : Option S) (list : List (Option S)) : Option (Option S) :=
  match sizeindex, sizename with
  | none, none => none
  | some _, some _ => none
  | none, some n => some (some n)
  | some i, none =>
    if none ∈ list then
      if 0 ≤ i ∧ i < (list.idxOf none : ℤ) then list[i.toNat]?
      else if i < 0 ∧ (list.idxOf none : ℤ) < i + list.length then list[(i + list.length).toNat]?
      else none
    else none

/-- `defaultsizelist` (`text.py:582-583`). -/
def defaultSizes : List (Option String) :=
  [some "normalsize", some "large", some "Large", some "LARGE", some "huge", some "Huge", none, some "tiny", some "scriptsize",
    some "footnotesize", some "small"]

/-! ## `escapestring` -/

/-- A string literal. -/
def lit (s : String) : List Char := s.toList

/-- The dictionary `replace` (`text.py:1847-1860`). -/
def replacement : Char → Option (List Char)
  | ' ' => some (lit "~")
  | '$' => some (lit "\\$")
  | '&' => some (lit "\\&")
  | '#' => some (lit "\\#")
  | '_' => some (lit "\\_")
  | '%' => some (lit "\\%")
  | '^' => some (lit "\\string^")
  | '~' => some (lit "\\string~")
  | '<' => some (lit "{$<$}")
  | '>' => some (lit "{$>$}")
  | '{' => some (lit "{$\\{$}")
  | '}' => some (lit "{$\\}$}")
  | '\\' => some (lit "{$\\setminus$}")
  | '|' => some (lit "{$\\mid$}")
  | _ => none

/-- The loop of `escapestring` (`text.py:1862-1874`) on the whole string with the index; `none` is the `ValueError`. The recursion is over the characters not yet seen. -/
def escLoop (s : List Char) (i : ℕ) : Option (List Char) :=
  if h : i < s.length then
    if ¬ (32 ≤ s[i].toNat ∧ s[i].toNat < 127) then none
    else match replacement s[i] with
      | none => escLoop s (i + 1)
      | some r => escLoop (s.take i ++ r ++ s.drop (i + 1)) (i + r.length)
  else some s
termination_by s.length - i
decreasing_by
  · omega
  · simp only [List.length_append, List.length_take, List.length_drop]; omega

/-- `escapestring` (`text.py:1847-1874`). -/
def escapestring (s : List Char) : Option (List Char) := escLoop s 0

end PyX.TextAttr
