import Mathlib.Data.List.Basic
import Mathlib.Data.Nat.Notation

/-!
# C138: the thread which reads the output of TeX (`text.py:623-795`): model

The three parties run concurrently: the main thread in `_execute` (`text.py:1077-1103`), the thread of
`MonitorOutput.run` (`text.py:763-795`), and TeX at the other end of two pipes.  A state has the program
counters and local variables of the three and what they share: the queue `_expect` of one element, the
event `_received`, the queue `_output`, and the pipes to and from TeX, both of a limited capacity.  Each
action is one access to what is shared; the actions of the three may be interleaved in any way.
An expression is written in several chunks, and TeX answers to each chunk with some lines.
-/

set_option linter.unusedSectionVars false

namespace PyX.Monitor

/-- The program counter of the main thread: the steps of `_execute` for an expression
(`text.py:1094-1103`), the corresponding ones at the end (`text.py:1080-1081, 1098-1103`), and the
exception `queue.Full` of `put_nowait` (`text.py:661`). -/
inductive MainPc
  | expect | write | wait | read | expectEnd | writeEnd | join | readEnd | finished | full
  deriving DecidableEq

/-- The program counter of the thread (`text.py:772-795`): before `_readline`, with a line (or the end of
the output) before the look into `_expect`, before `_output.put`, before the search; after its end, and
after the `ValueError`. -/
inductive ReadPc (L : Type)
  | reading
  | fetch (l : Option L)
  | put (l : Option L)
  | check (l : L)
  | closed
  | raised
  deriving DecidableEq

/-- The state. `L` are the lines; `rest` is what TeX is going to answer to the expressions which are not
finished yet, and `final` the answer to the end. -/
structure State (L : Type) where
  mpc : MainPc
  /-- the number of the current expression (`executeid`) -/
  k : ℕ
  /-- the answers to the chunks of the current and the following expressions -/
  rest : List (List (List L))
  /-- the answer to the end -/
  final : List L
  /-- the chunks which are still to be written: the answers, and whether it is the end -/
  towrite : List (Bool × List L) := []
  /-- results of `read` -/
  reads : List (List L) := []
  /-- the list in `read` -/
  buf : List L := []
  /-- `_expect`: empty, `None` or a marker -/
  queue : Option (Option ℕ) := none
  /-- `_received` -/
  received : Bool := false
  /-- `_output` -/
  outq : List L := []
  rpc : ReadPc L := .reading
  /-- the local variable `expect` of `run` -/
  rexp : Option ℕ := none
  /-- the pipe from TeX -/
  pipe : List L := []
  /-- the pipe to TeX -/
  texin : List (Bool × List L) := []
  /-- what TeX is writing -/
  pending : List L := []
  /-- TeX has been told to end -/
  tend : Bool := false
  /-- TeX has ended -/
  texdone : Bool := false
  deriving DecidableEq

/-- The actions. -/
inductive Act
  | expect | write | flush | wait | get | readEnd | join | timeout
  | line | eof | fetch | put | check
  | take | emit | close
  deriving DecidableEq

variable {L : Type}

/-- `self._expect.put_nowait(s)` (`text.py:661`). -/
def putExpect (s : State L) (e : Option ℕ) (w : List (Bool × List L)) (next : MainPc) : State L :=
  match s.queue with
  | none => { s with queue := some e, towrite := w, mpc := next }
  | some _ => { s with mpc := .full }

/-- `texinput.write` (`text.py:1081, 1097`): the next chunk, if there is space in the pipe. -/
def writeChunk (icap : ℕ) (s : State L) : Option (State L) :=
  match s.towrite with
  | c :: w => if s.texin.length < icap then some { s with texin := s.texin ++ [c], towrite := w } else none
  | [] => none

/-- After `read` (`text.py:1103`) for an expression: the next one, or the end. -/
def nextExpr (s : State L) : State L :=
  { s with reads := s.reads ++ [s.buf], buf := [], k := s.k + 1, rest := s.rest.tail,
           mpc := if s.rest.tail = [] then .expectEnd else .expect }

/-- The actions of the main thread. -/
def mainAct (icap : ℕ) (a : Act) (s : State L) : Option (State L) :=
  match a, s.mpc with
  | .expect, .expect => some (putExpect s (some s.k) ((s.rest.headD []).map fun r => (false, r)) .write)
  | .expect, .expectEnd => some (putExpect s none [(true, s.final)] .writeEnd)
  | .write, .write => writeChunk icap s
  | .write, .writeEnd => writeChunk icap s
  | .flush, .write => if s.towrite = [] then some { s with mpc := .wait } else none
  | .flush, .writeEnd => if s.towrite = [] then some { s with mpc := .join } else none
  | .wait, .wait => if s.received then some { s with received := false, mpc := .read } else none
  | .timeout, .wait => if s.received then none else some { s with mpc := .read }
  | .join, .join =>
    match s.rpc with
    | .closed => some { s with mpc := .readEnd }
    | .raised => some { s with mpc := .readEnd }
    | _ => none
  | .get, .read =>
    match s.outq with
    | l :: q => some { s with outq := q, buf := s.buf ++ [l] }
    | [] => none
  | .get, .readEnd =>
    match s.outq with
    | l :: q => some { s with outq := q, buf := s.buf ++ [l] }
    | [] => none
  | .readEnd, .read => if s.outq = [] then some (nextExpr s) else none
  | .readEnd, .readEnd => if s.outq = [] then some { s with reads := s.reads ++ [s.buf], buf := [], mpc := .finished } else none
  | _, _ => none

/-- The look into `_expect` (`text.py:775-779`). -/
def fetchExpect (s : State L) (l : Option L) : State L :=
  match s.rexp, s.queue with
  | none, some e => { s with rexp := e, queue := none, rpc := .put l }
  | _, _ => { s with rpc := .put l }

/-- The search for the marker (`text.py:783-787`). -/
def search (has : L → ℕ → Bool) (s : State L) (l : L) : State L :=
  match s.rexp with
  | some n => if has l n then { s with received := true, rexp := none, rpc := .reading } else { s with rpc := .reading }
  | none => { s with rpc := .reading }

/-- The actions of the thread (`text.py:772-795`). -/
def readerAct (has : L → ℕ → Bool) (a : Act) (s : State L) : Option (State L) :=
  match a, s.rpc with
  | .line, .reading =>
    match s.pipe with
    | l :: p => some { s with pipe := p, rpc := .fetch (some l) }
    | [] => none
  | .eof, .reading => if s.pipe = [] ∧ s.texdone then some { s with rpc := .fetch none } else none
  | .fetch, .fetch l => some (fetchExpect s l)
  | .put, .put (some l) => some { s with outq := s.outq ++ [l], rpc := .check l }
  | .put, .put none => some { s with rpc := if s.rexp = none then .closed else .raised }
  | .check, .check l => some (search has s l)
  | _, _ => none

/-- The actions of TeX: to take what it has been told, to write a line if there is space in the pipe, and
to end. -/
def texAct (cap : ℕ) (a : Act) (s : State L) : Option (State L) :=
  match a with
  | .take =>
    if s.pending = [] ∧ s.tend = false then
      match s.texin with
      | (e, r) :: c => some { s with texin := c, pending := r, tend := e }
      | [] => none
    else none
  | .emit =>
    match s.pending with
    | l :: p => if s.pipe.length < cap then some { s with pending := p, pipe := s.pipe ++ [l] } else none
    | [] => none
  | .close => if s.tend ∧ s.pending = [] ∧ s.texdone = false then some { s with texdone := true } else none
  | _ => none

/-- One action of one of the three. -/
def act (has : L → ℕ → Bool) (icap cap : ℕ) (a : Act) (s : State L) : Option (State L) :=
  match a with
  | .expect | .write | .flush | .wait | .get | .readEnd | .join | .timeout => mainAct icap a s
  | .line | .eof | .fetch | .put | .check => readerAct has a s
  | .take | .emit | .close => texAct cap a s

/-- The state before the first expression, for the answers TeX is going to give. -/
def initial (replies : List (List (List L))) (final : List L) : State L :=
  { mpc := if replies = [] then .expectEnd else .expect, k := 0, rest := replies, final := final }

/-- Several actions one after the other. -/
def acts (has : L → ℕ → Bool) (icap cap : ℕ) : List Act → State L → Option (State L)
  | [], s => some s
  | a :: l, s => (act has icap cap a s).bind (acts has icap cap l)

/-! ## `_wait` -/

/-- The loop of `_wait` (`text.py:700-720`) with `showwait`: the timeouts the waiter is called with, and
the result.  `event t` tells whether there is an event after waiting `t` seconds.  The first argument
bounds the number of rounds. -/
def waitLoop (event : ℕ → Bool) (wait showwait : ℕ) : ℕ → ℕ → Bool → List ℕ × Bool
  | 0, _, has => ([], has)
  | n + 1, waited, has =>
    if waited < wait ∧ has = false then
      let t := if wait - waited > showwait then showwait else wait - waited
      let r := waitLoop event wait showwait n (waited + t) (event (waited + t))
      (t :: r.1, r.2)
    else ([], has)

/-- `_wait` (`text.py:680-723`). -/
def waiting (event : ℕ → Bool) (wait showwait : ℕ) : List ℕ × Bool :=
  if showwait ≠ 0 then waitLoop event wait showwait (wait + 1) 0 false else ([wait], event wait)

end PyX.Monitor
