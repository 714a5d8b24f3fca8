import Verif.Text.Message
import Mathlib.Algebra.Order.Field.Rat

/-!
# C130: the TeX process and the pages of the texts (`text.py:857-865, 938-1502`): model
-/

set_option linter.unusedSectionVars false

namespace PyX.TexEngine

open PyX.TexMsg

/-- The exceptions; `attribute` is the `AttributeError` of a method called on `None`, `value` the `ValueError` for left over pages or a closed file, `dvi` a `DVIError` and `struct` the error of a file which is too short. -/
inductive Err
  | assertion | texDone | texResult | encode | dvi | struct | value | attribute | parser
  deriving DecidableEq

/-- A message parser (`text.py:188-381`): what is left of the message, or an exception. -/
abbrev Parser := Str → Except Err Str

/-! ## Messages -/

/-- The characters of a string. -/
def lit (s : String) : Str := s.toList

/-- `str(n)`. -/
def str (n : ℕ) : Str := Nat.toDigits 10 n

/-- `"PyXInputMarker:executeid=%s:"` (`text.py:1091, 1105`). -/
def marker (n : ℕ) : Str := (lit "PyXInputMarker:executeid=") ++ str n ++ [':']

/-- `"[80.121.88.%s]"` (`text.py:1115`). -/
def pageOut (n : ℕ) : Str := (lit "[80.121.88.") ++ str n ++ [']']

/-- The groups of `PyXBoxPattern`. -/
structure BoxMsg where
  page : Str
  lt : Str
  rt : Str
  ht : Str
  dp : Str
  deriving DecidableEq

/-- What follows a prefix. -/
def after (p s : Str) : Option Str := if p.isPrefixOf s then some (s.drop p.length) else none

/-- A sign: `-?`. -/
def signAt : Str → Str × Str
  | '-' :: s => (['-'], s)
  | s => ([], s)

/-- Digits with a dot: `\d*((\d\.?)|(\.?\d))\d*` followed by a character which is neither a digit nor a dot. -/
def decimalAt (s : Str) : Option (Str × Str) :=
  match s.dropWhile Char.isDigit with
  | '.' :: t =>
    if s.takeWhile Char.isDigit = [] ∧ t.takeWhile Char.isDigit = [] then none else
      some (s.takeWhile Char.isDigit ++ '.' :: t.takeWhile Char.isDigit, t.dropWhile Char.isDigit)
  | t => if s.takeWhile Char.isDigit = [] then none else some (s.takeWhile Char.isDigit, t)

/-- An extent: `-?\d*((\d\.?)|(\.?\d))\d*`. -/
def numberAt (s : Str) : Option (Str × Str) := (decimalAt (signAt s).2).map fun r => ((signAt s).1 ++ r.1, r.2)

/-- `\d+`. -/
def digitsAt (s : Str) : Option (Str × Str) :=
  if s.takeWhile Char.isDigit = [] then none else some (s.takeWhile Char.isDigit, s.dropWhile Char.isDigit)

/-- `PyXBoxPattern` at the begin of a string (`text.py:940`): the groups and what follows. -/
def boxAt (s : Str) : Option (BoxMsg × Str) := do
  let s ← after (lit "PyXBox:page=") s
  let (page, s) ← digitsAt s
  let s ← after (lit ",lt=") s
  let (lt, s) ← numberAt s
  let s ← after (lit "pt,rt=") s
  let (rt, s) ← numberAt s
  let s ← after (lit "pt,ht=") s
  let (ht, s) ← numberAt s
  let s ← after (lit "pt,dp=") s
  let (dp, s) ← numberAt s
  let s ← after (lit "pt:") s
  return (⟨page, lt, rt, ht, dp⟩, s)

/-- `remove_pattern(PyXBoxPattern, parsed, ignore_nl=False)` (`text.py:61-106, 1109`): the leftmost match is removed. -/
def removeBox : Str → Option (BoxMsg × Str)
  | [] => none
  | c :: s =>
    match boxAt (c :: s) with
    | some r => some r
    | none => (removeBox s).map fun r => (r.1, c :: r.2)

/-- The value of digits. -/
def digitsVal (s : Str) : ℚ := s.foldl (fun v c => 10 * v + ((c.toNat : ℚ) - 48)) 0

/-- The value of digits with a dot. -/
def decimalVal (s : Str) : ℚ :=
  digitsVal (s.takeWhile (· ≠ '.')) + digitsVal ((s.dropWhile (· ≠ '.')).drop 1) / 10 ^ ((s.dropWhile (· ≠ '.')).drop 1).length

/-- `float(x)` for a match of the pattern. -/
def float (s : Str) : ℚ := if (signAt s).1 = [] then decimalVal (signAt s).2 else -decimalVal (signAt s).2

/-- `float(x)*72/72.27` (`text.py:1114`). -/
def psPoints (s : Str) : ℚ := float s * 72 / (7227 / 100)

/-- The end of `dvi_pattern`: `texput\.dvi"? \((?P<page>\d+) pages?, \d+ bytes\)\.` at the begin of a string: the page and the number of characters (`text.py:941`). -/
def dviTail (s : Str) : Option (Str × ℕ) := do
  let t ← after (lit "texput.dvi") s
  let t := (after ['"'] t).getD t
  let t ← after (lit " (") t
  let (page, t) ← digitsAt t
  let t ← after (lit " page") t
  let t := (after ['s'] t).getD t
  let t ← after (lit ", ") t
  let (_, t) ← digitsAt t
  let t ← after (lit " bytes).") t
  return (page, s.length - t.length)

/-- The last match in a string (as `.*` is greedy); positions are counted from `n`. -/
def lastTail : ℕ → Str → Option (Str × ℕ)
  | _, [] => none
  | n, c :: s =>
    match lastTail (n + 1) s with
    | some r => some r
    | none => (dviTail (c :: s)).map fun r => (r.1, n + r.2)

/-- `dvi_pattern` at the begin of a string (`text.py:941`). -/
def dviAt (s : Str) : Option (Str × ℕ) :=
  match after (lit "Output written on ") s with
  | none => none
  | some t => lastTail "Output written on ".length t

/-- `dvi_pattern` (`text.py:941`). -/
def dviPattern : Regex := searchFrom dviAt 0

/-- `s.replace(p, '')` for a non-empty `p`; `k` characters are still to be skipped. -/
def replaceAllFrom (p : Str) : ℕ → Str → Str
  | _, [] => []
  | k + 1, _ :: s => replaceAllFrom p k s
  | 0, c :: s => if p.isPrefixOf (c :: s) then replaceAllFrom p (p.length - 1) s else c :: replaceAllFrom p 0 s

/-- `s.replace(p, '')`. -/
def replaceAll (p s : Str) : Str := replaceAllFrom p 0 s

/-- ``(Please type a command or say `\end')``. -/
def prompt : Str := (lit "(Please type a command or say `\\end')")

/-- What is not ignored (`text.py:1133`). -/
def leftover (s : Str) : Str :=
  replaceAll ['\n'] (replaceAll ['*', '\n'] (replaceAll [' '] (replaceAll prompt s)))

/-- The loop over the message parsers (`text.py:1131-1132`). -/
def parseAll : List Parser → Str → Except Err Str
  | [], s => .ok s
  | t :: ts, s => match t s with
    | .error e => .error e
    | .ok r => parseAll ts r

/-- The parsers and the test for an empty rest (`text.py:1131-1134`). -/
def finishParse (ps : List Parser) (s : Str) : Except Err Unit :=
  match parseAll ps s with
  | .error e => .error e
  | .ok r => if leftover r = [] then .ok () else .error .texResult

/-- The test of the page of a text (`text.py:1112-1117`). -/
def checkPage (page : ℕ) (ps : List Parser) (m : BoxMsg) (s : Str) : Except Err (List ℚ) :=
  if m.page ≠ str page then .error .texResult else
    if (removeString (pageOut page) s).2 then
      match finishParse ps (removeString (pageOut page) s).1 with
      | .error e => .error e
      | .ok _ => .ok [psPoints m.lt, psPoints m.rt, psPoints m.ht, psPoints m.dp]
    else .error .texResult

/-- The output of TeX for a text (`text.py:1101-1134` for `oldstate == newstate == STATE_TYPESET`). -/
def checkText (id page : ℕ) (ps : List Parser) (out : Str) : Except Err (List ℚ) :=
  if (removeString (marker id) out).2 then
    match removeBox (removeString (marker id) out).1 with
    | none => .error .texResult
    | some (m, s) => checkPage page ps m s
  else .error .texResult

/-- The output of TeX for other expressions (`text.py:1101-1134` for `newstate != STATE_DONE`). -/
def checkRun (id : ℕ) (ps : List Parser) (out : Str) : Except Err Unit :=
  if (removeString (marker id) out).2 then finishParse ps (removeString (marker id) out).1 else .error .texResult

/-- The output of TeX at its end (`text.py:1101-1134` for `newstate == STATE_DONE`). -/
def checkDone (page : ℕ) (ps : List Parser) (out : Str) : Except Err Unit :=
  if page = 0 then
    if (removeString (lit "No pages of output.") out).2 then finishParse ps (removeString (lit "No pages of output.") out).1
    else .error .texResult
  else
    match removePattern dviPattern out true with
    | (_, none) => .error .texResult
    | (s, some m) => if m.name ≠ str page then .error .texResult else finishParse ps s

/-! ## The engine -/

/-- What is written to TeX (`text.py:1079-1093`): an expression followed by `\PyXInput{id}`; `\ProcessPyXBox{expr}{page}` followed by `\PyXInput{id}`; the command for the end. -/
inductive Cmd
  | run (expr : Str) (id : ℕ)
  | box (expr : Str) (page id : ℕ)
  | finish (expr : Str)
  deriving DecidableEq

/-- What TeX does for a command: its output, whether the marker (or the end of the output) came within the time, and the pages written to the DVI file, each with its ten counters. -/
structure Reply (π : Type) where
  out : Str
  inTime : Bool
  ship : List (List ℕ × π)

/-- TeX: the reply to the last command of a sequence of commands. -/
abbrev Tex (π : Type) := List Cmd → Reply π

/-- The DVI file: not opened, to be read from the page with the given number, closed after the last page, and left within a page after a wrong page number. -/
inductive Dvi
  | unopened | reading (pos : ℕ) | closed | garbled
  deriving DecidableEq

/-- A text: `_dvicanvas` (`text.py:847, 857-865`). `sent` is not in the code: the commands given to TeX when the text was typeset, which is used to state what the text should show. -/
structure Box (π : Type) where
  canvas : Option π
  sent : List Cmd
  extent : List ℚ

/-- `STATE_START, STATE_PREAMBLE, STATE_TYPESET, STATE_DONE` (`text.py:939`). -/
inductive State
  | start | preamble | typeset | done
  deriving DecidableEq

/-- The numbers of the states. -/
def State.rank : State → ℕ
  | .start => 0
  | .preamble => 1
  | .typeset => 2
  | .done => 3

/-- `SingleEngine` (`text.py:947-1029`). `log` is what has been written to TeX, `boxes` are the texts made by the engine, `need` the numbers of those in `needdvitextboxes`. -/
structure Eng (π : Type) where
  state : State := .start
  page : ℕ := 0
  executeid : ℕ := 0
  log : List Cmd := []
  boxes : List (Box π) := []
  need : List ℕ := []
  dvi : Dvi := .unopened

/-- The settings of an engine: whether an expression can be encoded, `texipc`, the expressions executed by `do_start` with their parsers, `\begin{document}` with its parsers for LaTeX, the end, the parsers for preambles and texts. -/
structure Cfg where
  encodable : Str → Bool
  texipc : Bool
  startExprs : List (Str × List Parser)
  begindoc : Option (Str × List Parser)
  endExpr : Str
  endParsers : List Parser
  preambleParsers : List Parser
  runParsers : List Parser

variable {π : Type}

/-- All pages in the DVI file after a sequence of commands. -/
def shipped (tex : Tex π) : List Cmd → List (List ℕ × π)
  | l => (l.inits.drop 1).flatMap fun h => (tex h).ship

/-- The reply of TeX, where no reply within the time is an error (`text.py:1096-1103`). -/
def answered {α : Type} (r : Reply π) (check : Str → Except Err α) : Except Err α :=
  if r.inTime then check r.out else .error .texResult

/-- `_execute` for `oldstate == newstate == STATE_TYPESET` (`text.py:1061-1147`). -/
def executeText (cfg : Cfg) (tex : Tex π) (e : Eng π) (expr : Str) (ps : List Parser) : Eng π × Except Err (List ℚ) :=
  if e.state ≠ .typeset then (e, .error .assertion) else
    if cfg.encodable expr = false then (e, .error .encode) else
      let log := e.log ++ [.box expr (e.page + 1) (e.executeid + 1)]
      ({ e with page := e.page + 1, executeid := e.executeid + 1, log := log },
        answered (tex log) (checkText (e.executeid + 1) (e.page + 1) ps))

/-- `_execute` from `STATE_PREAMBLE` (`text.py:1061-1147`) to the state `new`, which is `STATE_PREAMBLE` or `STATE_TYPESET`. -/
def executeRun (cfg : Cfg) (tex : Tex π) (new : State) (e : Eng π) (expr : Str) (ps : List Parser) : Eng π × Except Err Unit :=
  if e.state ≠ .preamble then (e, .error .assertion) else
    if cfg.encodable expr = false then (e, .error .encode) else
      let log := e.log ++ [.run expr (e.executeid + 1)]
      ({ e with executeid := e.executeid + 1, log := log, state := new },
        answered (tex log) (checkRun (e.executeid + 1) ps))

/-- `_execute` for `newstate == STATE_DONE` (`text.py:1061-1147`). -/
def executeDone (cfg : Cfg) (tex : Tex π) (e : Eng π) : Eng π × Except Err Unit :=
  if e.state ≠ .typeset then (e, .error .assertion) else
    let log := e.log ++ [.finish cfg.endExpr]
    ({ e with log := log, state := .done }, answered (tex log) (checkDone e.page cfg.endParsers))

/-- Several expressions before the texts, until one of them fails (`text.py:1186-1211, 1369-1378, 1430-1449`). -/
def executeAll (cfg : Cfg) (tex : Tex π) : List (Str × List Parser) → Eng π → Eng π × Except Err Unit
  | [], e => (e, .ok ())
  | x :: l, e =>
    match executeRun cfg tex .preamble e x.1 x.2 with
    | (e, .error err) => (e, .error err)
    | (e, .ok _) => executeAll cfg tex l e

/-- `do_start` (`text.py:1149-1211, 1369-1378, 1430-1449`). -/
def doStart (cfg : Cfg) (tex : Tex π) (e : Eng π) : Eng π × Except Err Unit :=
  if e.state ≠ .start then (e, .error .assertion) else
    executeAll cfg tex cfg.startExprs { e with state := .preamble }

/-- Start when necessary (`text.py:1215-1216, 1221-1222`). -/
def ensureStarted (cfg : Cfg) (tex : Tex π) (e : Eng π) : Eng π × Except Err Unit :=
  if e.state = .start then doStart cfg tex e else (e, .ok ())

/-- `go_typeset` of TeX and LaTeX (`text.py:1360-1362, 1420-1421`). -/
def goTypeset (cfg : Cfg) (tex : Tex π) (e : Eng π) : Eng π × Except Err Unit :=
  match cfg.begindoc with
  | none => if e.state ≠ .preamble then (e, .error .assertion) else ({ e with state := .typeset }, .ok ())
  | some x => executeRun cfg tex .typeset e x.1 x.2

/-- `if self.state < STATE_TYPESET: self.go_typeset()` (`text.py:1223-1224, 1234-1235`). -/
def ensureTypeset (cfg : Cfg) (tex : Tex π) (e : Eng π) : Eng π × Except Err Unit :=
  if e.state = .start ∨ e.state = .preamble then goTypeset cfg tex e else (e, .ok ())

/-- `preamble` and `do_preamble` (`text.py:1213-1217, 1254-1269`). -/
def preamble (cfg : Cfg) (tex : Tex π) (e : Eng π) (expr : Str) (ps : List Parser) : Eng π × Except Err Unit :=
  match ensureStarted cfg tex e with
  | (e, .error err) => (e, .error err)
  | (e, .ok _) => executeRun cfg tex .preamble e expr (cfg.preambleParsers ++ ps)

/-- `do_typeset` (`text.py:1219-1225`). -/
def doTypeset (cfg : Cfg) (tex : Tex π) (e : Eng π) (expr : Str) (ps : List Parser) : Eng π × Except Err (List ℚ) :=
  match ensureStarted cfg tex e with
  | (e, .error err) => (e, .error err)
  | (e, .ok _) =>
    match ensureTypeset cfg tex e with
    | (e, .error err) => (e, .error err)
    | (e, .ok _) => executeText cfg tex e expr ps

/-- The ten counters of the page of a text (`text.py:858`). -/
def pageId (n : ℕ) : List ℕ := [80, 121, 88, n, 0, 0, 0, 0, 0, 0]

/-- `readpage` (`dvifile.py:403-433`); `ended` tells whether the file has its postamble. -/
def readPage (pages : List (List ℕ × π)) (ended : Bool) (id : Option (List ℕ)) : Dvi → Dvi × Except Err (Option π)
  | .unopened => (.unopened, .error .attribute)
  | .closed => (.closed, .error .value)
  | .garbled => (.garbled, .error .dvi)
  | .reading pos =>
    match pages[pos]? with
    | none => if ended then (.closed, .ok none) else (.reading pos, .error .struct)
    | some p => if id ≠ none ∧ id ≠ some p.1 then (.garbled, .error .dvi) else (.reading (pos + 1), .ok (some p.2))

/-- Set the canvas of a text. -/
def setCanvas (l : List (Box π)) (i : ℕ) (c : Option π) : List (Box π) := l.modify i fun b => { b with canvas := c }

/-- The loop over `needdvitextboxes` (`text.py:1244-1247`). -/
def readBoxes (pages : List (List ℕ × π)) : List ℕ → ℕ → Dvi → List (Box π) → (Dvi × List (Box π)) × Except Err Unit
  | [], _, d, bs => ((d, bs), .ok ())
  | i :: l, n, d, bs =>
    match readPage pages true (some (pageId n)) d with
    | (d, .error err) => ((d, bs), .error err)
    | (d, .ok c) => readBoxes pages l (n + 1) d (setCanvas bs i c)

/-- The test for further pages (`text.py:1248-1249`). -/
def furtherPages (pages : List (List ℕ × π)) : Dvi → Dvi × Except Err Unit
  | .unopened => (.unopened, .ok ())
  | d => match readPage pages true none d with
    | (d, .error err) => (d, .error err)
    | (d, .ok none) => (d, .ok ())
    | (d, .ok (some _)) => (d, .error .value)

/-- The reading of the DVI file at the end (`text.py:1241-1249`). -/
def readDvi (tex : Tex π) (e : Eng π) : Eng π × Except Err Unit :=
  match readBoxes (shipped tex e.log) e.need 1 (if e.need = [] then e.dvi else .reading 0) e.boxes with
  | ((d, bs), .error err) => ({ e with dvi := d, boxes := bs }, .error err)
  | ((d, bs), .ok _) => ({ e with dvi := (furtherPages (shipped tex e.log) d).1, boxes := bs }, (furtherPages (shipped tex e.log) d).2)

/-- `do_finish` (`text.py:1227-1252`). -/
def doFinish (cfg : Cfg) (tex : Tex π) (e : Eng π) : Eng π × Except Err Unit :=
  if e.state = .done then (e, .ok ()) else
    match ensureTypeset cfg tex e with
    | (e, .error err) => (e, .error err)
    | (e, .ok _) =>
      match executeDone cfg tex e with
      | (e, .error err) => (e, .error err)
      | (e, .ok _) => readDvi tex e

/-- The new text is put on the list, or its page is read with `texipc` (`text.py:1306-1317`). -/
def addBox (cfg : Cfg) (tex : Tex π) (first : Bool) (e : Eng π) (ext : List ℚ) : Eng π × Except Err ℕ :=
  if cfg.texipc then
    match readPage (shipped tex e.log) false (some (pageId e.page)) (if first then .reading 0 else e.dvi) with
    | (d, .error err) => ({ e with dvi := d }, .error err)
    | (d, .ok c) => ({ e with dvi := d, boxes := e.boxes ++ [⟨c, e.log, ext⟩] }, .ok e.boxes.length)
  else ({ e with boxes := e.boxes ++ [⟨none, e.log, ext⟩], need := e.need ++ [e.boxes.length] }, .ok e.boxes.length)

/-- `text_pt` (`text.py:1271-1317`); the attributes have been applied to `expr` already. The number of the text is returned. -/
def text (cfg : Cfg) (tex : Tex π) (e : Eng π) (expr : Str) (ps : List Parser) : Eng π × Except Err ℕ :=
  if e.state = .done then (e, .error .texDone) else
    match doTypeset cfg tex e expr (cfg.runParsers ++ ps) with
    | (e', .error err) => (e', .error err)
    | (e', .ok ext) => addBox cfg tex (decide (e.state = .start ∨ e.state = .preamble)) e' ext

/-- `textextbox_pt.dvicanvas` (`text.py:861-865`): the engine is finished when the page has not been read. -/
def dvicanvas (cfg : Cfg) (tex : Tex π) (e : Eng π) (i : ℕ) : Eng π × Except Err (Option π) :=
  match e.boxes[i]? with
  | none => (e, .error .attribute)
  | some b =>
    if b.canvas.isSome then (e, .ok b.canvas) else
      match doFinish cfg tex e with
      | (e, .error err) => (e, .error err)
      | (e, .ok _) => (e, .ok (e.boxes[i]?.bind (·.canvas)))

/-! ## The engine which starts again -/

/-- `MultiEngine` (`text.py:1462-1513`): the current instance and the preambles. -/
structure Multi (π : Type) where
  inst : Eng π := {}
  preambles : List (Str × List Parser) := []

/-- The loop which repeats the preambles (`text.py:1508-1510`). -/
def replay (cfg : Cfg) (tex : Tex π) : List (Str × List Parser) → Eng π → Eng π × Except Err Unit
  | [], e => (e, .ok ())
  | x :: l, e =>
    match preamble cfg tex e x.1 x.2 with
    | (e, .error err) => (e, .error err)
    | (e, .ok _) => replay cfg tex l e

/-- `reset` (`text.py:1494-1513`). -/
def reset (cfg : Cfg) (tex : Tex π) (reinit : Bool) (m : Multi π) : Multi π × Except Err Unit :=
  if reinit then ({ m with inst := (replay cfg tex m.preambles {}).1 }, (replay cfg tex m.preambles {}).2)
  else ({}, .ok ())

/-- `MultiEngine.preamble` (`text.py:1479-1482`). -/
def mpreamble (cfg : Cfg) (tex : Tex π) (m : Multi π) (expr : Str) (ps : List Parser) : Multi π × Except Err Unit :=
  ({ inst := (preamble cfg tex m.inst expr ps).1, preambles := m.preambles ++ [(expr, ps)] }, (preamble cfg tex m.inst expr ps).2)

/-- `MultiEngine.text_pt` with `reset_for_tex_done` (`text.py:1451-1459, 1484-1487`). -/
def mtext (cfg : Cfg) (tex : Tex π) (m : Multi π) (expr : Str) (ps : List Parser) : Multi π × Except Err ℕ :=
  if (text cfg tex m.inst expr ps).2 = .error .texDone then
    match reset cfg tex true m with
    | (m, .error err) => (m, .error err)
    | (m, .ok _) => ({ m with inst := (text cfg tex m.inst expr ps).1 }, (text cfg tex m.inst expr ps).2)
  else ({ m with inst := (text cfg tex m.inst expr ps).1 }, (text cfg tex m.inst expr ps).2)

end PyX.TexEngine
