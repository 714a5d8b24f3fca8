import Mathlib.Data.List.Sort
import Mathlib.Data.List.TakeWhile
import Mathlib.Tactic.Linarith

/-!
# C129: parsing the output of TeX (`text.py:30-381`): model
-/

set_option linter.unusedSectionVars false

namespace PyX.TexMsg

abbrev Str := List Char

/-! ## Helper functions -/

/-- `s.replace(p, '', 1)` (for a non-empty `p`). -/
def replaceFirst (p : Str) : Str → Str
  | [] => []
  | c :: s => if p.isPrefixOf (c :: s) then (c :: s).drop p.length else c :: replaceFirst p s

/-- `remove_string` (`text.py:35-58`). -/
def removeString (p s : Str) : Str × Bool := (replaceFirst p s, decide (replaceFirst p s ≠ s))

/-- A match of a regular expression: its span and the group `filename` (empty if there is none). -/
structure Match where
  start : ℕ
  stop : ℕ
  name : Str

/-- `p.search` of a compiled pattern. -/
abbrev Regex := Str → Option Match

/-- `s.replace('\n', '')` (`text.py:86`). -/
def dropNl (s : Str) : Str := s.filter (· ≠ '\n')

/-- The loop which translates the span (`text.py:96-104`). -/
def mapEnds (rs re : ℕ) : Str → ℕ → ℕ × ℕ → ℕ × ℕ
  | [], _, e => e
  | c :: s, j, e =>
    if c = '\n' then
      mapEnds rs re s j (if j < re then (if j ≤ rs then e.1 + 1 else e.1, e.2 + 1) else e)
    else mapEnds rs re s (j + 1) e

/-- The span in the string with newlines (`text.py:93-104`). -/
def spanOf (s r : Str) (m : Match) : ℕ × ℕ := if r ≠ s then mapEnds m.start m.stop s 0 (m.start, m.stop) else (m.start, m.stop)

/-- `remove_pattern` (`text.py:61-106`). -/
def removePattern (p : Regex) (s : Str) (ignoreNl : Bool) : Str × Option Match :=
  let r := if ignoreNl then dropNl s else s
  match p r with
  | none => (s, none)
  | some m => (s.take (spanOf s r m).1 ++ s.drop (spanOf s r m).2, some m)

/-- `index_all` (`text.py:109-118`), for a string which begins at position `n`. -/
def indexAll (c : Char) : ℕ → Str → List ℕ
  | _, [] => []
  | n, x :: s => if x = c then n :: indexAll c (n + 1) s else indexAll c (n + 1) s

/-- `pairwise` (`text.py:121-124`). -/
def pairwise (l : List ℕ) : List (ℕ × ℕ) := l.zip l.tail

/-- The loop over the quotes (`text.py:149-158`). -/
def quoteLoop : List (ℕ × ℕ) → List ℕ × List ℕ → List ℕ × List ℕ
  | [], e => e
  | (oq, cq) :: l, (op, cl) =>
    if 1 ≤ oq ∧ oq - 1 ∈ op then
      quoteLoop l (op.filter (fun pos => ¬ (oq < pos ∧ pos < cq)), cl.filter (fun pos => ¬ (oq < pos ∧ pos < cq)))
    else quoteLoop l (op, cl)

/-- The order in which `sorted(…, reverse=True)` puts pairs. -/
def later (a b : ℕ × Int) : Prop := b.1 < a.1 ∨ b.1 = a.1 ∧ b.2 ≤ a.2

instance : DecidableRel later := fun a b => by unfold later; infer_instance

/-- The brackets with the changes of the level (`text.py:169-171`). -/
def events (op cl : List ℕ) : List (ℕ × Int) := ((op.map fun p => (p, (-1 : Int))) ++ (cl.map fun p => (p, (1 : Int)))).insertionSort later

/-- The loop over the brackets (`text.py:165-184`); `endpos` is used only after it has been set (at level 2). -/
def bracketLoop (s : Str) : List (ℕ × Int) → Int → ℕ → Str → Str
  | [], _, _, r => r
  | (pos, d) :: l, level, endpos, r =>
    if level + d < 0 then s else
      bracketLoop s l (level + d) (if d = 1 ∧ level + d = 2 then pos + 1 else endpos)
        (if d = -1 ∧ level + d = 1 then r.take pos ++ r.drop endpos else r)

/-- `remove_nested_brackets` with the default brackets and quotes (`text.py:127-185`). -/
def removeNested (s : Str) : Str :=
  let e := quoteLoop (pairwise (indexAll '"' 0 s)) (indexAll '(' 0 s, indexAll ')' 0 s)
  if e.1.length ≠ e.2.length then s else bracketLoop s (events e.1 e.2) 0 0 s

/-! ## The patterns -/

/-- The leftmost match; `m` gives the group and the length of a match at the begin of a string. -/
def searchFrom (m : Str → Option (Str × ℕ)) : ℕ → Str → Option Match
  | _, [] => none
  | n, c :: s =>
    match m (c :: s) with
    | some r => some ⟨n, n + r.2, r.1⟩
    | none => searchFrom m (n + 1) s

/-- The number of characters of `.*?\)` (with `DOTALL` or without newlines). -/
def untilClose : Str → Option ℕ
  | [] => none
  | c :: s => if c = ')' then some 1 else (untilClose s).map (· + 1)

/-- `\("(?P<filename>[^"]+)".*?\)` at the begin of a string without newlines (`text.py:258`). -/
def quotedFileAt : Str → Option (Str × ℕ)
  | '(' :: '"' :: s =>
    if s.takeWhile (· ≠ '"') = [] then none else
      match s.dropWhile (· ≠ '"') with
      | [] => none
      | _ :: t => (untilClose t).map fun k => (s.takeWhile (· ≠ '"'), 3 + (s.takeWhile (· ≠ '"')).length + k)
  | _ => none

/-- A character of a file name without quotes. -/
def nameChar (c : Char) : Bool := c ≠ ' ' && c ≠ ')'

/-- `\((?P<filename>[^"][^ )]*).*?\)` with `DOTALL` at the begin of a string (`text.py:259`). -/
def fileAt : Str → Option (Str × ℕ)
  | '(' :: c :: s =>
    if c = '"' then none else
      (untilClose (s.dropWhile nameChar)).map fun k => (c :: s.takeWhile nameChar, 2 + (s.takeWhile nameChar).length + k)
  | _ => none

def quotedFile : Regex := searchFrom quotedFileAt 0
def file : Regex := searchFrom fileAt 0

/-- A string which ends with one of the endings, with at least one character before. -/
def endsWith (es : List Str) (s : Str) : Bool := es.any fun e => decide (e.length < s.length) && e.isSuffixOf s

/-- A file name in quotes between an opening and a closing character: `\("(?P<filename>[^"]+\.(fd|def))"\)` and `<"(?P<filename>[^"]+\.eps)">` (`text.py:308, 323`). -/
def quotedAt (o cl : Char) (es : List Str) : Str → Option (Str × ℕ)
  | a :: '"' :: s =>
    if a = o then
      match s.dropWhile (· ≠ '"') with
      | '"' :: d :: _ => if d = cl ∧ endsWith es (s.takeWhile (· ≠ '"')) then some (s.takeWhile (· ≠ '"'), 4 + (s.takeWhile (· ≠ '"')).length) else none
      | _ => none
    else none
  | _ => none

/-- A file name without quotes: `\((?P<filename>[^"][^ )]*\.(fd|def))\)` and `<(?P<filename>[^"][^>]*\.eps)>` (`text.py:309, 324`); `stop` are the characters which the name
cannot contain after its first one.  The endings have no such characters and the first character belongs to `[^"]`, so the ending has to be in the rest of the name. -/
def plainAt (o cl : Char) (stop : Char → Bool) (es : List Str) : Str → Option (Str × ℕ)
  | a :: c :: s =>
    if a = o ∧ c ≠ '"' then
      match s.dropWhile (fun x => !stop x) with
      | d :: _ => if d = cl ∧ es.any (fun e => e.isSuffixOf (s.takeWhile fun x => !stop x)) then some (c :: s.takeWhile (fun x => !stop x), 3 + (s.takeWhile fun x => !stop x).length) else none
      | [] => none
    else none
  | _ => none

def defEnds : List Str := [".fd".toList, ".def".toList]
def epsEnds : List Str := [".eps".toList]
def quotedDef : Regex := searchFrom (quotedAt '(' ')' defEnds) 0
def plainDef : Regex := searchFrom (plainAt '(' ')' (fun x => x = ' ' || x = ')') defEnds) 0
def quotedGraphics : Regex := searchFrom (quotedAt '<' '>' epsEnds) 0
def plainGraphics : Regex := searchFrom (plainAt '<' '>' (fun x => x = '>') epsEnds) 0

/-! ## The parsers -/

/-- The result of a `while m` loop: the string, or the message has to be returned. -/
inductive Strip
  | done (r : Str)
  | giveUp
  | endless
  deriving DecidableEq

/-- `while m: if not …: return msg; r, m = remove_pattern(p, r)` where the first match is also one of `p`.  The first argument bounds the number of rounds. -/
def stripAll (p : Regex) (nl : Bool) (ok : Str → Bool) : ℕ → Str → Strip
  | 0, _ => .endless
  | n + 1, s =>
    match removePattern p s nl with
    | (r, none) => .done r
    | (r, some m) => if ok m.name then stripAll p nl ok n r else .giveUp

/-- `itertools.accumulate(name.split("\n"))` (`text.py:300`): the parts before each newline, without the newlines. -/
def accumulated : Str → Str → List Str
  | acc, [] => [acc]
  | acc, c :: s => if c = '\n' then acc :: accumulated acc s else accumulated (acc ++ [c]) s

/-- Continue with the next loop. -/
def Strip.next (x : Strip) (f : Str → Strip) : Strip :=
  match x with
  | .done r => f r
  | .giveUp => .giveUp
  | .endless => .endless

/-- What a parser returns; `none` for a loop without end. -/
def Strip.result (msg : Str) : Strip → Option Str
  | .done r => some r
  | .giveUp => some msg
  | .endless => none

/-- `texmessage.load` (`text.py:262-306`); `isfile` is the test with the `chroot` prefix. -/
def load (isfile : Str → Bool) (msg : Str) : Option Str :=
  ((stripAll quotedFile true isfile (msg.length + 1) (removeNested msg)).next fun r =>
    stripAll file false (fun n => (accumulated [] n).any isfile) (msg.length + 1) r).result msg

/-- `texmessage.load_def` (`text.py:312-321`). -/
def loadDef (isfile : Str → Bool) (msg : Str) : Option Str :=
  ((stripAll quotedDef true isfile (msg.length + 1) msg).next fun r => stripAll plainDef true isfile (msg.length + 1) r).result msg

/-- One round of the outer loop of `load_graphics` (`text.py:331-335`): the loop goes on with `quoted_file_pattern` after the first match. -/
def graphicsRound (isfile : Str → Bool) (p : Regex) (n : ℕ) (s : Str) : Strip :=
  match removePattern p s true with
  | (r, none) => .done r
  | (r, some m) => if isfile m.name then stripAll quotedFile true isfile n r else .giveUp

/-- `texmessage.load_graphics` (`text.py:327-336`). -/
def loadGraphics (isfile : Str → Bool) (msg : Str) : Option Str :=
  ((graphicsRound isfile quotedGraphics (msg.length + 1) msg).next fun r => graphicsRound isfile plainGraphics (msg.length + 1) r).result msg

/-- `texmessage.pattern` (`text.py:363-376`): the texts which are logged and what is left; `none` if the rounds do not suffice. -/
def warnAll (p : Regex) : ℕ → Str → Option (List Str × Str)
  | 0, _ => none
  | n + 1, s =>
    match removePattern p s false with
    | (r, none) => some ([], r)
    | (r, some m) => (warnAll p n r).map fun x => ((s.take m.stop).drop m.start :: x.1, x.2)

/-- `msg.split(sep, 1)[-1]`. -/
def afterFirst (p : Str) : Str → Option Str
  | [] => none
  | c :: s => if p.isPrefixOf (c :: s) then some ((c :: s).drop p.length) else afterFirst p s

def raised : Str := "*! Undefined control sequence.\n<*> \\raiseerror\n               %\n".toList

inductive Err
  | startFailed
  | scrollmode
  | logfile
  deriving DecidableEq

/-- `texmessage.start` (`text.py:207-229`); `found` tells whether the start pattern is found. -/
def start (found : Str → Bool) (msg : Str) : Except Err Str :=
  if ¬ found msg then .error .startFailed else
    match afterFirst raised msg with
    | none => .error .scrollmode
    | some r => .ok r

end PyX.TexMsg
