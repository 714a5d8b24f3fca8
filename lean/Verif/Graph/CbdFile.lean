import Mathlib.Algebra.Order.Field.Rat
import Mathlib.Data.List.Basic
import Mathlib.Data.Nat.Digits.Defs
import Mathlib.Tactic.Linarith
import Mathlib.Tactic.Ring
import Mathlib.Tactic.NormNum

/-!
# C151: maps from CBD files (`pyx/graph/data.py`, `cbdfile`)

A file is the list of its bytes.  The class was written for Python 2, where a byte read by `struct.unpack` with `c` is a string and can be compared with `"\177"`.
In Python 3, for which PyX is made, it is a `bytes` object and the comparison raises `TypeError`.  The model has both languages, to say what is decoded in the one and what
happens in the other.
-/

set_option linter.unusedSectionVars false

namespace PyX.Graph.Cbd

/-! ## Model -/

/-- The exceptions. -/
inductive Err
  | struct
  | magic
  | seek
  | type
deriving DecidableEq

/-- The language in which the code runs. -/
inductive Python
  | py2
  | py3
deriving DecidableEq

/-- The comparison `c > "\177"` (`data.py:435, 439, 445`). -/
def gt127 : Python → ℕ → Except Err Bool
  | .py2, c => .ok (decide (c > 127))
  | .py3, _ => .error .type

/-- `struct.unpack(format, file.read(n))` where `format` needs `n` bytes: `struct.error` if the file is too short. -/
def take (n : ℕ) (rest : List ℕ) : Except Err (List ℕ × List ℕ) := if rest.length < n then .error .struct else .ok (rest.take n, rest.drop n)

/-- `i` of `struct` with `<`: four bytes, the lowest first, signed. -/
def i32 : List ℕ → ℤ
  | [a, b, c, d] => let u : ℤ := a + 256 * b + 65536 * c + 16777216 * d; if u ≥ 2147483648 then u - 4294967296 else u
  | _ => 0

/-- `h` of `struct` with `<`. -/
def i16 : List ℕ → ℤ
  | [a, b] => let u : ℤ := a + 256 * b; if u ≥ 32768 then u - 65536 else u
  | _ => 0

/-- `file.seek`. -/
def seek (f : List ℕ) (addr : ℤ) : Except Err (List ℕ) := if addr < 0 then .error .seek else .ok (f.drop addr.toNat)

/-- `cbdhead` (`data.py:401-410`): the address of the dictionary and the number of segments. -/
def head (f : List ℕ) : Except Err (ℤ × ℤ) := do
  let (b, _) ← take 40 f
  if i32 (b.take 4) ≠ 0x20770002 then .error .magic else .ok (i32 ((b.drop 4).take 4), i32 ((b.drop 8).take 4))

/-- The part of `segdict` which is used (`data.py:412-424`). -/
structure Entry where
  maxlong : ℤ
  minlong : ℤ
  absaddr : ℤ
  rank : ℤ
deriving DecidableEq

/-- `segdict.__init__` (`data.py:414-424`). -/
def entry (rest : List ℕ) : Except Err (Entry × List ℕ) := do
  let (b, rest) ← take 28 rest
  .ok (⟨i32 ((b.drop 12).take 4), i32 ((b.drop 16).take 4), i32 ((b.drop 20).take 4), i16 ((b.drop 26).take 2)⟩, rest)

/-- `[segdict(file, i+1) for i in range(h.segcount)]` (`data.py:457`). -/
def entries : ℕ → List ℕ → Except Err (List Entry)
  | 0, _ => .ok []
  | n + 1, rest => do
    let (e, rest) ← entry rest
    let es ← entries n rest
    .ok (e :: es)

/-- One stroke (`data.py:433-447`): `dx`, `dy`. -/
def stroke (py : Python) (rest : List ℕ) : Except Err ((ℤ × ℤ) × List ℕ) := do
  let (b, rest) ← take 2 rest
  let c1 := b.getD 0 0
  let c2 := b.getD 1 0
  if c2 &&& 0x40 ≠ 0 then
    let dy : ℤ := if (← gt127 py c1) then (c1 : ℤ) - 256 else c1
    let dx : ℤ := if (← gt127 py c2) then (c2 : ℤ) - 256 else (c2 : ℤ) - 64
    .ok ((dx, dy), rest)
  else
    let (b, rest) ← take 6 rest
    let c2 := if (← gt127 py c2) then c2 ||| 0x40 else c2
    .ok ((i32 [b.getD 0 0, b.getD 1 0, c1, c2], i32 [b.getD 4 0, b.getD 5 0, b.getD 2 0, b.getD 3 0]), rest)

/-- The loop over the strokes (`data.py:431-450`): points are (latitude, longitude). -/
def strokes (py : Python) : ℕ → ℤ → ℤ → List ℕ → Except Err (List (ℤ × ℤ))
  | 0, _, _, _ => .ok []
  | n + 1, oln, olt, rest => do
    let ((dx, dy), rest) ← stroke py rest
    let ps ← strokes py n (oln + dx) (olt + dy) rest
    .ok ((olt + dy, oln + dx) :: ps)

/-- `segment.__init__` (`data.py:426-451`). -/
def segment (py : Python) (f : List ℕ) (e : Entry) : Except Err (List (ℤ × ℤ)) := do
  let rest ← seek f e.absaddr
  let (b, rest) ← take 16 rest
  let oln := i32 (b.take 4)
  let olt := i32 ((b.drop 4).take 4)
  let ps ← strokes py (i16 ((b.drop 12).take 2)).toNat oln olt rest
  .ok ((olt, oln) :: ps)

/-- Removal of jumps (`data.py:460-465`). -/
def unjump (e : Entry) (ps : List (ℤ × ℤ)) : List (ℤ × ℤ) :=
  if e.minlong < -150 * 3600 ∧ e.maxlong > 150 * 3600 then ps.map (fun p => if p.2 < 0 then (p.1, p.2 + 360 * 3600) else p) else ps

/-- The test of the rank (`data.py:469-470`). -/
def ranked (minrank maxrank : Option ℤ) (e : Entry) : Bool := (minrank.all fun m => decide (e.rank ≥ m)) && (maxrank.all fun m => decide (e.rank ≤ m))

/-- The loop which collects the points (`data.py:467-474`). -/
def collect (minrank maxrank : Option ℤ) : List (Entry × List (ℤ × ℤ)) → List (Option (ℚ × ℚ)) → List (Option (ℚ × ℚ))
  | [], acc => acc
  | (e, ps) :: r, acc =>
    if ranked minrank maxrank e then
      collect minrank maxrank r ((if acc.isEmpty then acc else acc ++ [none]) ++ ps.map fun p => some ((p.2 : ℚ) / 3600, (p.1 : ℚ) / 3600))
    else collect minrank maxrank r acc

/-- `[segment(file, sd) for sd in sds]` (`data.py:458`), paired with the entries. -/
def segments (py : Python) (f : List ℕ) : List Entry → Except Err (List (Entry × List (ℤ × ℤ)))
  | [] => .ok []
  | e :: es => do
    let ps ← segment py f e
    let r ← segments py f es
    .ok ((e, ps) :: r)

/-- `readfile` (`data.py:454-478`): the rows of the data, `none` for `(None, None)`. -/
def readfile (py : Python) (minrank maxrank : Option ℤ) (f : List ℕ) : Except Err (List (Option (ℚ × ℚ))) := do
  let (dictaddr, segcount) ← head f
  let rest ← seek f dictaddr
  let sds ← entries segcount.toNat rest
  let sbs ← segments py f sds
  .ok (collect minrank maxrank (sbs.map fun s => (s.1, unjump s.1 s.2)) [])

/-- `str` of a rank. -/
def rankStr : Option ℤ → List Char
  | none => "None".toList
  | some n => (if n < 0 then ['-'] else []) ++ Nat.toDigits 10 n.natAbs

/-- `getcachekey(filename, minrank, maxrank)` (`data.py:397-398, 485`). -/
def key (filename : List Char) (minrank maxrank : Option ℤ) : List Char := filename ++ ':' :: (rankStr minrank ++ ':' :: rankStr maxrank)

/-! ## Specification: the format, and what a map is -/

/-- A line of a map: in seconds of arc, `start` and `steps` as (longitude, latitude). -/
structure Line where
  rank : ℤ
  maxlong : ℤ
  minlong : ℤ
  start : ℤ × ℤ
  steps : List (ℤ × ℤ)

/-- Four bytes of a number. -/
def le32 (n : ℤ) : List ℕ := let u := (n % 4294967296).toNat; [u % 256, u / 256 % 256, u / 65536 % 256, u / 16777216]

/-- Two bytes. -/
def le16 (n : ℤ) : List ℕ := let u := (n % 65536).toNat; [u % 256, u / 256]

/-- A step: two bytes for a short one, eight for a long one.  Bit 6 of the second byte tells which. -/
inductive StepCode : ℤ × ℤ → List ℕ → Prop
  | short (dx dy : ℤ) (h1 : -64 ≤ dx) (h2 : dx < 64) (h3 : -128 ≤ dy) (h4 : dy < 128) :
      StepCode (dx, dy) [(dy % 256).toNat, (64 + dx % 64 + if dx < 0 then 128 else 0).toNat]
  | long (dx dy : ℤ) (h1 : -1073741824 ≤ dx) (h2 : dx < 1073741824) (h3 : -2147483648 ≤ dy) (h4 : dy < 2147483648) :
      StepCode (dx, dy) [(dx / 65536 % 256).toNat, (dx / 16777216 % 64 + if dx < 0 then 128 else 0).toNat, (dx % 256).toNat, (dx / 256 % 256).toNat,
        (dy / 65536 % 256).toNat, (dy / 16777216 % 256).toNat, (dy % 256).toNat, (dy / 256 % 256).toNat]

/-- The bytes of several steps. -/
inductive StepsCode : List (ℤ × ℤ) → List ℕ → Prop
  | nil : StepsCode [] []
  | cons {s b ss bs} : StepCode s b → StepsCode ss bs → StepsCode (s :: ss) (b ++ bs)

/-- The file has the bytes of a line at an address. -/
def HasLine (f : List ℕ) (addr : ℤ) (l : Line) : Prop :=
  0 ≤ addr ∧ l.steps.length < 32768 ∧ (-2147483648 ≤ l.start.1 ∧ l.start.1 < 2147483648) ∧ (-2147483648 ≤ l.start.2 ∧ l.start.2 < 2147483648) ∧
  ∃ id dummy b rest, id.length = 4 ∧ dummy.length = 2 ∧ StepsCode l.steps b ∧
    f.drop addr.toNat = le32 l.start.1 ++ le32 l.start.2 ++ id ++ le16 l.steps.length ++ dummy ++ b ++ rest

/-- The dictionary has the entries of the lines, which are at the addresses given there. -/
inductive HasDict (f : List ℕ) : List ℕ → List Line → Prop
  | nil (rest) : HasDict f rest []
  | cons (l ls addr a b rest) : a.length = 12 → b.length = 2 → HasLine f addr l →
      (-2147483648 ≤ addr ∧ addr < 2147483648) → (-2147483648 ≤ l.maxlong ∧ l.maxlong < 2147483648) → (-2147483648 ≤ l.minlong ∧ l.minlong < 2147483648) →
      (-32768 ≤ l.rank ∧ l.rank < 32768) → HasDict f rest ls →
      HasDict f (a ++ le32 l.maxlong ++ le32 l.minlong ++ le32 addr ++ b ++ le16 l.rank ++ rest) (l :: ls)

/-- A file with these lines. -/
def IsMap (f : List ℕ) (ls : List Line) : Prop :=
  ∃ dictaddr fill rest, (0 ≤ dictaddr ∧ dictaddr < 2147483648) ∧ ls.length < 2147483648 ∧ 28 ≤ fill ∧
    f = le32 0x20770002 ++ le32 dictaddr ++ le32 ls.length ++ rest ∧ rest.length = fill ∧ HasDict f (f.drop dictaddr.toNat) ls

/-- The points of a line: its start and the ends of its steps. -/
def track : ℤ × ℤ → List (ℤ × ℤ) → List (ℤ × ℤ)
  | p, [] => [p]
  | p, s :: ss => p :: track (p.1 + s.1, p.2 + s.2) ss

/-- A line which crosses the date line. -/
def Crossing (l : Line) : Prop := l.minlong < -540000 ∧ l.maxlong > 540000

instance (l : Line) : Decidable (Crossing l) := by unfold Crossing; infer_instance

/-- The point shown: in degrees, with positive longitudes for lines which cross the date line. -/
def shown (l : Line) (p : ℤ × ℤ) : ℚ × ℚ := ((if Crossing l ∧ p.1 < 0 then (p.1 : ℚ) / 3600 + 360 else (p.1 : ℚ) / 3600), (p.2 : ℚ) / 3600)

/-- The ranks asked for. -/
def Selected (minrank maxrank : Option ℤ) (l : Line) : Prop := (∀ m, minrank = some m → m ≤ l.rank) ∧ (∀ m, maxrank = some m → l.rank ≤ m)

/-! ## Lemmas -/

theorem take_append (n : ℕ) (a b : List ℕ) (h : a.length = n) : take n (a ++ b) = .ok (a, b) := by
  subst h
  rw [take, if_neg (by rw [List.length_append]; omega), List.take_left, List.drop_left]

theorem i32_le32 (n : ℤ) (h1 : -2147483648 ≤ n) (h2 : n < 2147483648) : i32 (le32 n) = n := by
  unfold le32 i32
  simp only
  have e : ((n % 4294967296).toNat : ℤ) = n % 4294967296 := Int.toNat_of_nonneg (Int.emod_nonneg _ (by decide))
  have hu : (n % 4294967296).toNat < 4294967296 := by omega
  generalize (n % 4294967296).toNat = u at e hu ⊢
  have : ((u % 256 : ℕ) : ℤ) + 256 * ((u / 256 % 256 : ℕ) : ℤ) + 65536 * ((u / 65536 % 256 : ℕ) : ℤ) + 16777216 * ((u / 16777216 : ℕ) : ℤ) = u := by omega
  rw [this]
  split <;> omega

theorem i16_le16 (n : ℤ) (h1 : -32768 ≤ n) (h2 : n < 32768) : i16 (le16 n) = n := by
  unfold le16 i16
  simp only
  have e : ((n % 65536).toNat : ℤ) = n % 65536 := Int.toNat_of_nonneg (Int.emod_nonneg _ (by decide))
  have hu : (n % 65536).toNat < 65536 := by omega
  generalize (n % 65536).toNat = u at e hu ⊢
  have : ((u % 256 : ℕ) : ℤ) + 256 * ((u / 256 : ℕ) : ℤ) = u := by omega
  rw [this]
  split <;> omega

theorem bit6_set : ∀ c : Fin 64, ((64 + c.1) &&& 0x40 ≠ 0) ∧ ((192 + c.1) &&& 0x40 ≠ 0) ∧ (c.1 &&& 0x40 = 0) ∧ ((128 + c.1) &&& 0x40 = 0) ∧
    ((128 + c.1) ||| 0x40 = 192 + c.1) := by decide

theorem stroke_py2 (s : ℤ × ℤ) (b rest : List ℕ) (h : StepCode s b) : stroke .py2 (b ++ rest) = .ok (s, rest) := by
  cases h with
  | short dx dy h1 h2 h3 h4 =>
    have ht := take_append 2 [(dy % 256).toNat, (64 + dx % 64 + if dx < 0 then 128 else 0).toNat] rest rfl
    unfold stroke
    rw [ht]
    simp only [bind, Except.bind, List.getD_cons_zero, List.getD_cons_succ]
    obtain ⟨c, hc⟩ : ∃ c : Fin 64, (c.1 : ℤ) = dx % 64 := ⟨⟨(dx % 64).toNat, by omega⟩, by simp only; omega⟩
    obtain ⟨b1, b2, b3, b4, b5⟩ := bit6_set c
    have hcl := c.2
    by_cases hx : dx < 0
    · have e : (64 + dx % 64 + if dx < 0 then 128 else 0).toNat = 192 + c.1 := by rw [if_pos hx]; omega
      rw [e, if_pos b2]
      simp only [gt127]
      have g2 : decide (192 + c.1 > 127) = true := decide_eq_true (by omega)
      rw [g2]
      by_cases hy : (dy % 256).toNat > 127
      · simp only [hy, decide_true, if_true]
        have : ((dy % 256).toNat : ℤ) - 256 = dy := by omega
        have e2 : ((192 + c.1 : ℕ) : ℤ) - 256 = dx := by omega
        rw [this, e2]
      · simp only [hy, decide_false, if_true, Bool.false_eq_true, if_false]
        have : ((dy % 256).toNat : ℤ) = dy := by omega
        have e2 : ((192 + c.1 : ℕ) : ℤ) - 256 = dx := by omega
        rw [this, e2]
    · have e : (64 + dx % 64 + if dx < 0 then 128 else 0).toNat = 64 + c.1 := by rw [if_neg hx]; omega
      rw [e, if_pos b1]
      simp only [gt127]
      have g2 : decide (64 + c.1 > 127) = false := decide_eq_false (by omega)
      rw [g2]
      by_cases hy : (dy % 256).toNat > 127
      · simp only [hy, decide_true, if_true, Bool.false_eq_true, if_false]
        have : ((dy % 256).toNat : ℤ) - 256 = dy := by omega
        have e2 : ((64 + c.1 : ℕ) : ℤ) - 64 = dx := by omega
        rw [this, e2]
      · simp only [hy, decide_false, Bool.false_eq_true, if_false]
        have : ((dy % 256).toNat : ℤ) = dy := by omega
        have e2 : ((64 + c.1 : ℕ) : ℤ) - 64 = dx := by omega
        rw [this, e2]
  | long dx dy h1 h2 h3 h4 =>
    have ht := take_append 2 [(dx / 65536 % 256).toNat, (dx / 16777216 % 64 + if dx < 0 then 128 else 0).toNat]
      ([(dx % 256).toNat, (dx / 256 % 256).toNat, (dy / 65536 % 256).toNat, (dy / 16777216 % 256).toNat, (dy % 256).toNat, (dy / 256 % 256).toNat] ++ rest) rfl
    have ht2 := take_append 6 [(dx % 256).toNat, (dx / 256 % 256).toNat, (dy / 65536 % 256).toNat, (dy / 16777216 % 256).toNat, (dy % 256).toNat, (dy / 256 % 256).toNat] rest rfl
    unfold stroke
    have ea : ∀ a b : ℕ, ∀ l : List ℕ, a :: b :: l ++ rest = [a, b] ++ (l ++ rest) := fun _ _ _ => rfl
    rw [ea, ht]
    simp only [bind, Except.bind, List.getD_cons_zero, List.getD_cons_succ]
    obtain ⟨c, hc⟩ : ∃ c : Fin 64, (c.1 : ℤ) = dx / 16777216 % 64 := ⟨⟨(dx / 16777216 % 64).toNat, by omega⟩, by simp only; omega⟩
    obtain ⟨b1, b2, b3, b4, b5⟩ := bit6_set c
    have hcl := c.2
    have hdy : i32 [(dy % 256).toNat, (dy / 256 % 256).toNat, (dy / 65536 % 256).toNat, (dy / 16777216 % 256).toNat] = dy := by
      unfold i32
      simp only
      have : ((dy % 256).toNat : ℤ) + 256 * ((dy / 256 % 256).toNat : ℤ) + 65536 * ((dy / 65536 % 256).toNat : ℤ) + 16777216 * ((dy / 16777216 % 256).toNat : ℤ) = dy % 4294967296 := by omega
      rw [this]
      split <;> omega
    by_cases hx : dx < 0
    · have e : (dx / 16777216 % 64 + if dx < 0 then 128 else 0).toNat = 128 + c.1 := by rw [if_pos hx]; omega
      rw [e, if_neg (by rw [b4]; simp), ht2]
      simp only [gt127, List.getD_cons_zero, List.getD_cons_succ]
      have g2 : decide (128 + c.1 > 127) = true := decide_eq_true (by omega)
      rw [g2, hdy]
      simp only [if_true]
      rw [b5]
      have : i32 [(dx % 256).toNat, (dx / 256 % 256).toNat, (dx / 65536 % 256).toNat, 192 + c.1] = dx := by
        unfold i32
        simp only
        have : ((dx % 256).toNat : ℤ) + 256 * ((dx / 256 % 256).toNat : ℤ) + 65536 * ((dx / 65536 % 256).toNat : ℤ) + 16777216 * ((192 + c.1 : ℕ) : ℤ) = dx + 4294967296 := by
          push_cast; rw [hc]; omega
        rw [this]
        split <;> omega
      rw [this]
    · have e : (dx / 16777216 % 64 + if dx < 0 then 128 else 0).toNat = c.1 := by rw [if_neg hx]; omega
      rw [e, if_neg (by rw [b3]; simp), ht2]
      simp only [gt127, List.getD_cons_zero, List.getD_cons_succ]
      have g2 : decide (c.1 > 127) = false := decide_eq_false (by omega)
      rw [g2, hdy]
      simp only [Bool.false_eq_true, if_false]
      have : i32 [(dx % 256).toNat, (dx / 256 % 256).toNat, (dx / 65536 % 256).toNat, c.1] = dx := by
        unfold i32
        simp only
        have : ((dx % 256).toNat : ℤ) + 256 * ((dx / 256 % 256).toNat : ℤ) + 65536 * ((dx / 65536 % 256).toNat : ℤ) + 16777216 * (c.1 : ℤ) = dx := by
          rw [hc]; omega
        rw [this]
        split <;> omega
      rw [this]

theorem strokes_py2 (ss : List (ℤ × ℤ)) (b rest : List ℕ) (h : StepsCode ss b) (x y : ℤ) :
    ∃ ps, strokes .py2 ss.length x y (b ++ rest) = .ok ps ∧ (y, x) :: ps = (track (x, y) ss).map Prod.swap := by
  induction h generalizing x y with
  | nil => exact ⟨[], rfl, rfl⟩
  | cons h1 h2 ih =>
    rename_i s b ss bs
    obtain ⟨ps, e1, e2⟩ := ih (x + s.1) (y + s.2)
    refine ⟨(y + s.2, x + s.1) :: ps, ?_, ?_⟩
    · rw [List.length_cons, strokes, List.append_assoc, stroke_py2 s b _ h1]
      simp only [bind, Except.bind]
      rw [e1]
    · rw [track, List.map_cons, ← e2]; rfl

theorem le32_length (n : ℤ) : (le32 n).length = 4 := rfl

theorem le16_length (n : ℤ) : (le16 n).length = 2 := rfl

theorem segment_head (f : List ℕ) (e : Entry) (l : Line) (h : HasLine f e.absaddr l) (py : Python) :
    ∃ b rest, StepsCode l.steps b ∧ segment py f e = (do
      let ps ← strokes py l.steps.length l.start.1 l.start.2 (b ++ rest)
      .ok ((l.start.2, l.start.1) :: ps)) := by
  obtain ⟨h0, hn, hx, hy, id, dummy, b, rest, hid, hd, hb, hf⟩ := h
  refine ⟨b, rest, hb, ?_⟩
  unfold segment seek
  rw [if_neg (by omega), hf]
  obtain ⟨i0, i1, i2, i3, rfl⟩ : ∃ a b c d, id = [a, b, c, d] := by
    rcases id with _ | ⟨a, _ | ⟨b, _ | ⟨c, _ | ⟨d, _ | ⟨e, r⟩⟩⟩⟩⟩ <;> simp at hid
    exact ⟨a, b, c, d, rfl⟩
  obtain ⟨d0, d1, rfl⟩ : ∃ a b, dummy = [a, b] := by
    rcases dummy with _ | ⟨a, _ | ⟨b, _ | ⟨c, r⟩⟩⟩ <;> simp at hd
    exact ⟨a, b, rfl⟩
  have ht := take_append 16 (le32 l.start.1 ++ le32 l.start.2 ++ [i0, i1, i2, i3] ++ le16 l.steps.length ++ [d0, d1]) (b ++ rest) rfl
  simp only [bind, Except.bind]
  rw [List.append_assoc _ b rest, ht]
  simp only
  have e1 : i32 ((le32 l.start.1 ++ le32 l.start.2 ++ [i0, i1, i2, i3] ++ le16 l.steps.length ++ [d0, d1]).take 4) = l.start.1 := i32_le32 _ hx.1 hx.2
  have e2 : i32 (((le32 l.start.1 ++ le32 l.start.2 ++ [i0, i1, i2, i3] ++ le16 l.steps.length ++ [d0, d1]).drop 4).take 4) = l.start.2 := i32_le32 _ hy.1 hy.2
  have e3 : i16 (((le32 l.start.1 ++ le32 l.start.2 ++ [i0, i1, i2, i3] ++ le16 l.steps.length ++ [d0, d1]).drop 12).take 2) = l.steps.length :=
    i16_le16 _ (by omega) (by omega)
  rw [e1, e2, e3]
  rfl

theorem entry_spec (l : Line) (addr : ℤ) (a b rest : List ℕ) (ha : a.length = 12) (hb : b.length = 2)
    (h1 : -2147483648 ≤ addr ∧ addr < 2147483648) (h2 : -2147483648 ≤ l.maxlong ∧ l.maxlong < 2147483648) (h3 : -2147483648 ≤ l.minlong ∧ l.minlong < 2147483648)
    (h4 : -32768 ≤ l.rank ∧ l.rank < 32768) :
    entry (a ++ le32 l.maxlong ++ le32 l.minlong ++ le32 addr ++ b ++ le16 l.rank ++ rest) = .ok (⟨l.maxlong, l.minlong, addr, l.rank⟩, rest) := by
  unfold entry
  rw [take_append 28 (a ++ le32 l.maxlong ++ le32 l.minlong ++ le32 addr ++ b ++ le16 l.rank) rest (by
    simp only [List.length_append, ha, hb, le32_length, le16_length])]
  simp only [bind, Except.bind]
  obtain ⟨b0, b1, rfl⟩ : ∃ p q, b = [p, q] := by
    rcases b with _ | ⟨a, _ | ⟨b, _ | ⟨c, r⟩⟩⟩ <;> simp at hb
    exact ⟨a, b, rfl⟩
  have hd : ∀ k (t : List ℕ), (a ++ t).drop (12 + k) = t.drop k := by
    intro k t
    rw [← ha, List.drop_append]
    simp
  have r1 : a ++ le32 l.maxlong ++ le32 l.minlong ++ le32 addr ++ [b0, b1] ++ le16 l.rank = a ++ (le32 l.maxlong ++ le32 l.minlong ++ le32 addr ++ [b0, b1] ++ le16 l.rank) := by
    simp only [List.append_assoc]
  rw [r1, hd 0, hd 4, hd 8, hd 14]
  have e1 : i32 (((le32 l.maxlong ++ le32 l.minlong ++ le32 addr ++ [b0, b1] ++ le16 l.rank).drop 0).take 4) = l.maxlong := i32_le32 _ h2.1 h2.2
  have e2 : i32 (((le32 l.maxlong ++ le32 l.minlong ++ le32 addr ++ [b0, b1] ++ le16 l.rank).drop 4).take 4) = l.minlong := i32_le32 _ h3.1 h3.2
  have e3 : i32 (((le32 l.maxlong ++ le32 l.minlong ++ le32 addr ++ [b0, b1] ++ le16 l.rank).drop 8).take 4) = addr := i32_le32 _ h1.1 h1.2
  have e4 : i16 (((le32 l.maxlong ++ le32 l.minlong ++ le32 addr ++ [b0, b1] ++ le16 l.rank).drop 14).take 2) = l.rank := i16_le16 _ h4.1 h4.2
  rw [e1, e2, e3, e4]

/-- An entry belongs to a line. -/
def Belongs (f : List ℕ) (e : Entry) (l : Line) : Prop := e.maxlong = l.maxlong ∧ e.minlong = l.minlong ∧ e.rank = l.rank ∧ HasLine f e.absaddr l

theorem entries_spec (f rest : List ℕ) (ls : List Line) (h : HasDict f rest ls) : ∃ es, entries ls.length rest = .ok es ∧ List.Forall₂ (Belongs f) es ls := by
  induction h with
  | nil rest => exact ⟨[], rfl, .nil⟩
  | cons l ls addr a b rest ha hb hl h1 h2 h3 h4 _ ih =>
    obtain ⟨es, e1, e2⟩ := ih
    refine ⟨_, ?_, List.Forall₂.cons (a := (⟨l.maxlong, l.minlong, addr, l.rank⟩ : Entry)) ⟨rfl, rfl, rfl, hl⟩ e2⟩
    rw [List.length_cons, entries, entry_spec l addr a b rest ha hb h1 h2 h3 h4]
    simp only [bind, Except.bind]
    rw [e1]

theorem head_spec (f : List ℕ) (ls : List Line) (h : IsMap f ls) : ∃ d, head f = .ok (d, (ls.length : ℤ)) ∧ ∃ rest, seek f d = .ok rest ∧ HasDict f rest ls := by
  obtain ⟨d, n, rest, hd, hl, hn, hf, hr, hdict⟩ := h
  refine ⟨d, ?_, f.drop d.toNat, by rw [seek, if_neg (by omega)], hdict⟩
  unfold head
  have hlen : ¬ f.length < 40 := by
    rw [hf]; simp only [List.length_append, le32_length]; omega
  rw [take, if_neg hlen]
  simp only [bind, Except.bind]
  have t1 : (f.take 40).take 4 = le32 0x20770002 := by
    rw [List.take_take, hf]; rfl
  have t2 : ((f.take 40).drop 4).take 4 = le32 d := by
    rw [List.drop_take, List.take_take, hf]; rfl
  have t3 : ((f.take 40).drop 8).take 4 = le32 ls.length := by
    rw [List.drop_take, List.take_take, hf]; rfl
  rw [t1, t2, t3, i32_le32 _ (by decide) (by decide), if_neg (by simp), i32_le32 _ (by omega) (by omega), i32_le32 _ (by omega) (by omega)]

theorem segments_py2 (f : List ℕ) (es : List Entry) (ls : List Line) (h : List.Forall₂ (Belongs f) es ls) :
    ∃ r, segments .py2 f es = .ok r ∧ List.Forall₂ (fun (s : Entry × List (ℤ × ℤ)) l => Belongs f s.1 l ∧ s.2 = (track l.start l.steps).map Prod.swap) r ls := by
  induction h with
  | nil => exact ⟨[], rfl, .nil⟩
  | cons h1 _ ih =>
    rename_i e l es ls _
    obtain ⟨r, e1, e2⟩ := ih
    obtain ⟨b, rest, hb, hs⟩ := segment_head f e l h1.2.2.2 .py2
    obtain ⟨ps, p1, p2⟩ := strokes_py2 l.steps b rest hb l.start.1 l.start.2
    refine ⟨(e, (l.start.2, l.start.1) :: ps) :: r, ?_, List.Forall₂.cons ⟨h1, p2⟩ e2⟩
    rw [segments, hs, p1]
    simp only [bind, Except.bind]
    rw [e1]

theorem ranked_iff (minrank maxrank : Option ℤ) (e : Entry) (l : Line) (h : e.rank = l.rank) : ranked minrank maxrank e = true ↔ Selected minrank maxrank l := by
  unfold ranked Selected
  rw [h]
  cases minrank <;> cases maxrank <;> simp

theorem track_ne_nil (p : ℤ × ℤ) (ss : List (ℤ × ℤ)) : track p ss ≠ [] := by cases ss <;> simp [track]

open Classical in
/-- The rows of a list of lines: their points, with a gap between one line and the next. -/
noncomputable def rows (ls : List Line) : List (Option (ℚ × ℚ)) := List.intercalate [none] (ls.map fun l => (track l.start l.steps).map fun p => some (shown l p))

theorem unjump_spec (e : Entry) (l : Line) (h1 : e.maxlong = l.maxlong) (h2 : e.minlong = l.minlong) (ps : List (ℤ × ℤ)) :
    (unjump e (ps.map Prod.swap)).map (fun p => some ((p.2 : ℚ) / 3600, (p.1 : ℚ) / 3600)) = ps.map fun p => some (shown l p) := by
  unfold unjump
  rw [h1, h2]
  by_cases hc : Crossing l
  · rw [if_pos (by unfold Crossing at hc; omega), List.map_map, List.map_map]
    apply List.map_congr_left
    rintro ⟨x, y⟩ _
    simp only [Function.comp, Prod.swap, shown, hc, true_and]
    by_cases hx : x < 0
    · rw [if_pos hx, if_pos hx]
      simp only [Option.some.injEq, Prod.mk.injEq, and_true]
      push_cast; ring
    · rw [if_neg hx, if_neg hx]
  · rw [if_neg (by unfold Crossing at hc; omega), List.map_map]
    apply List.map_congr_left
    rintro ⟨x, y⟩ _
    simp [Function.comp, Prod.swap, shown, hc]

theorem intercalate_snoc {α : Type} (s x : List α) (ys : List (List α)) (h : ys ≠ []) : List.intercalate s (ys ++ [x]) = List.intercalate s ys ++ s ++ x := by
  induction ys with
  | nil => exact absurd rfl h
  | cons y ys ih =>
    cases ys with
    | nil => simp [List.intercalate, List.intersperse]
    | cons z zs =>
      have := ih (by simp)
      simp only [List.intercalate, List.cons_append, List.intersperse, List.flatten_cons] at this ⊢
      rw [this]
      simp

theorem intercalate_ne_nil {α : Type} (s : List α) (ys : List (List α)) (h : ys ≠ []) (hn : ∀ y ∈ ys, y ≠ []) : List.intercalate s ys ≠ [] := by
  cases ys with
  | nil => exact absurd rfl h
  | cons y ys =>
    have := hn y (by simp)
    cases ys <;> simp [List.intercalate, List.intersperse, this]

open Classical in
theorem collect_spec (minrank maxrank : Option ℤ) (f : List ℕ) (r : List (Entry × List (ℤ × ℤ))) (ls : List Line)
    (h : List.Forall₂ (fun (s : Entry × List (ℤ × ℤ)) l => Belongs f s.1 l ∧ s.2 = (track l.start l.steps).map Prod.swap) r ls) (done : List Line) :
    collect minrank maxrank (r.map fun s => (s.1, unjump s.1 s.2)) (rows done) = rows (done ++ ls.filter (fun l => decide (Selected minrank maxrank l))) := by
  induction h generalizing done with
  | nil => simp [collect]
  | cons h1 _ ih =>
    rename_i s l r ls _
    obtain ⟨⟨b1, b2, b3, b4⟩, hs⟩ := h1
    rw [List.map_cons, collect]
    by_cases hr : ranked minrank maxrank s.1 = true
    · rw [if_pos hr, List.filter_cons_of_pos (by simpa using (ranked_iff _ _ _ _ b3).1 hr), hs, unjump_spec s.1 l b1 b2]
      have : (if (rows done).isEmpty = true then rows done else rows done ++ [none]) ++ (track l.start l.steps).map (fun p => some (shown l p)) = rows (done ++ [l]) := by
        cases hd : done with
        | nil => simp [rows, List.intercalate]
        | cons d ds =>
          rw [← hd]
          have hne : rows done ≠ [] := by
            apply intercalate_ne_nil
            · simp [hd]
            · intro y hy
              obtain ⟨l', _, rfl⟩ := List.mem_map.1 hy
              simpa using track_ne_nil _ _
          rw [if_neg (by simpa using hne)]
          conv_rhs => rw [rows, List.map_append]
          rw [List.map_singleton, intercalate_snoc _ _ _ (by simp [hd])]
          rfl
      rw [this, ih]
      simp
    · rw [if_neg hr, List.filter_cons_of_neg (by simpa using fun hh => hr ((ranked_iff _ _ _ _ b3).2 hh)), ih]

/-! ## Theorems -/

open Classical in
/-- **C151, partial.** In Python 2 the file is read correctly: the lines of the ranks asked for, in their order and separated by gaps, in degrees. -/
theorem read_partial (f : List ℕ) (ls : List Line) (h : IsMap f ls) (minrank maxrank : Option ℤ) :
    readfile .py2 minrank maxrank f = .ok (rows (ls.filter fun l => decide (Selected minrank maxrank l))) := by
  obtain ⟨d, h1, rest, h2, h3⟩ := head_spec f ls h
  obtain ⟨es, h4, h5⟩ := entries_spec f rest ls h3
  obtain ⟨r, h6, h7⟩ := segments_py2 f es ls h5
  unfold readfile
  rw [h1]
  simp only [bind, Except.bind]
  rw [h2]
  simp only
  rw [Int.toNat_natCast, h4]
  simp only
  rw [h6]
  simp only
  have := collect_spec minrank maxrank f r ls h7 []
  have e0 : rows [] = [] := by simp [rows, List.intercalate]
  rw [e0, List.nil_append] at this
  rw [this]

/-- **C151.** What is shown is where the line is: the longitude is that of the file up to a full turn, and a line across the date line has no longitudes below zero. -/
theorem shown_spec (l : Line) (p : ℤ × ℤ) : (shown l p).2 * 3600 = p.2 ∧ ((shown l p).1 * 3600 = p.1 ∨ ((shown l p).1 - 360) * 3600 = p.1) ∧
    (¬ Crossing l → (shown l p).1 * 3600 = p.1) ∧ (Crossing l → -180 * 3600 ≤ p.1 → p.1 ≤ 180 * 3600 → 0 ≤ (shown l p).1 ∧ (shown l p).1 < 360) := by
  unfold shown
  refine ⟨by simp only; ring, ?_, ?_, ?_⟩
  · by_cases hc : Crossing l ∧ p.1 < 0
    · right; simp only [if_pos hc]; ring
    · left; simp only [if_neg hc]; ring
  · intro hc; simp only [hc, false_and, if_false]; ring
  · intro hc h1 h2
    have h1' : (-648000 : ℚ) ≤ p.1 := by exact_mod_cast h1
    have h2' : (p.1 : ℚ) ≤ 648000 := by exact_mod_cast h2
    by_cases hx : p.1 < 0
    · have hx' : (p.1 : ℚ) < 0 := by exact_mod_cast hx
      simp only [hc, hx, and_self, if_true]
      constructor <;> linarith
    · have hx' : (0 : ℚ) ≤ p.1 := by exact_mod_cast not_lt.1 hx
      simp only [hx, and_false, if_false]
      constructor <;> linarith

theorem stroke_py3 (s : ℤ × ℤ) (b rest : List ℕ) (h : StepCode s b) : stroke .py3 (b ++ rest) = .error .type := by
  cases h with
  | short dx dy h1 h2 h3 h4 =>
    unfold stroke
    rw [take_append 2 _ rest rfl]
    simp only [bind, Except.bind, List.getD_cons_zero, List.getD_cons_succ]
    obtain ⟨c, hc⟩ : ∃ c : Fin 64, (c.1 : ℤ) = dx % 64 := ⟨⟨(dx % 64).toNat, by omega⟩, by simp only; omega⟩
    obtain ⟨b1, b2, b3, b4, b5⟩ := bit6_set c
    by_cases hx : dx < 0
    · have e : (64 + dx % 64 + if dx < 0 then 128 else 0).toNat = 192 + c.1 := by rw [if_pos hx]; omega
      rw [e, if_pos b2]; rfl
    · have e : (64 + dx % 64 + if dx < 0 then 128 else 0).toNat = 64 + c.1 := by rw [if_neg hx]; omega
      rw [e, if_pos b1]; rfl
  | long dx dy h1 h2 h3 h4 =>
    unfold stroke
    have ea : ∀ a b : ℕ, ∀ l : List ℕ, a :: b :: l ++ rest = [a, b] ++ (l ++ rest) := fun _ _ _ => rfl
    rw [ea, take_append 2 _ _ rfl]
    simp only [bind, Except.bind, List.getD_cons_zero, List.getD_cons_succ]
    rw [take_append 6 _ rest rfl]
    split_ifs <;> rfl

theorem segment_py3 (f : List ℕ) (e : Entry) (l : Line) (h : HasLine f e.absaddr l) :
    segment .py3 f e = if l.steps = [] then .ok [(l.start.2, l.start.1)] else .error .type := by
  obtain ⟨b, rest, hb, hs⟩ := segment_head f e l h .py3
  rw [hs]
  cases hl : l.steps with
  | nil => simp [strokes, bind, Except.bind]
  | cons s ss =>
    rw [hl] at hb
    cases hb with
    | cons h1 h2 =>
      rw [List.length_cons, strokes, List.append_assoc, stroke_py3 _ _ _ h1]
      simp [bind, Except.bind]

theorem segments_py3 (f : List ℕ) (es : List Entry) (ls : List Line) (h : List.Forall₂ (Belongs f) es ls) :
    ((∃ l ∈ ls, l.steps ≠ []) → segments .py3 f es = .error .type) ∧ ((∀ l ∈ ls, l.steps = []) → segments .py3 f es = segments .py2 f es) := by
  induction h with
  | nil => exact ⟨fun ⟨l, h, _⟩ => by simp at h, fun _ => rfl⟩
  | cons h1 _ ih =>
    rename_i e l es ls _
    rw [segments, segment_py3 f e l h1.2.2.2]
    by_cases hl : l.steps = []
    · rw [if_pos hl]
      constructor
      · rintro ⟨l', hm, hn⟩
        rcases List.mem_cons.1 hm with rfl | hm
        · exact absurd hl hn
        · simp only [bind, Except.bind]; rw [ih.1 ⟨l', hm, hn⟩]
      · intro ha
        rw [ih.2 fun l' hl' => ha l' (by simp [hl'])]
        obtain ⟨b, rest, hb, hs⟩ := segment_head f e l h1.2.2.2 .py2
        conv_rhs => rw [segments, hs, hl]
        simp [strokes, bind, Except.bind]
    · rw [if_neg hl]
      exact ⟨fun _ => rfl, fun ha => absurd (ha l (by simp)) hl⟩

/-- **C151, violation.** In Python 3 no map with a line can be read: `TypeError`, whatever ranks are asked for. -/
theorem lines_fail (f : List ℕ) (ls : List Line) (h : IsMap f ls) (hl : ∃ l ∈ ls, l.steps ≠ []) (minrank maxrank : Option ℤ) :
    readfile .py3 minrank maxrank f = .error .type := by
  obtain ⟨d, h1, rest, h2, h3⟩ := head_spec f ls h
  obtain ⟨es, h4, h5⟩ := entries_spec f rest ls h3
  unfold readfile
  rw [h1]
  simp only [bind, Except.bind]
  rw [h2]
  simp only
  rw [Int.toNat_natCast, h4]
  simp only
  rw [(segments_py3 f es ls h5).1 hl]

open Classical in
/-- **C151.** Only maps of single points are read. -/
theorem points_read (f : List ℕ) (ls : List Line) (h : IsMap f ls) (hl : ∀ l ∈ ls, l.steps = []) (minrank maxrank : Option ℤ) :
    readfile .py3 minrank maxrank f = .ok (rows (ls.filter fun l => decide (Selected minrank maxrank l))) := by
  rw [← read_partial f ls h]
  obtain ⟨d, h1, rest, h2, h3⟩ := head_spec f ls h
  obtain ⟨es, h4, h5⟩ := entries_spec f rest ls h3
  unfold readfile
  rw [h1]
  simp only [bind, Except.bind]
  rw [h2]
  simp only
  rw [Int.toNat_natCast, h4]
  simp only
  rw [(segments_py3 f es ls h5).2 hl]

theorem digits_inj (a b : ℕ) (h : Nat.toDigits 10 a = Nat.toDigits 10 b) : a = b := by
  have := congrArg (Nat.ofDigitChars 10 · 0) h
  simpa [Nat.ofDigitChars_ten_toDigits] using this

theorem digit_mem (a : ℕ) (c : Char) (h : c ∈ Nat.toDigits 10 a) : c.isDigit = true := Nat.isDigit_of_mem_toDigits (b := 10) (by decide) (by decide) h

theorem rankStr_colon (r : Option ℤ) : ':' ∉ rankStr r := by
  cases r with
  | none => decide
  | some n =>
    rw [rankStr]
    intro h
    rcases List.mem_append.1 h with h | h
    · by_cases hn : n < 0
      · rw [if_pos hn] at h; simp at h
      · rw [if_neg hn] at h; simp at h
    · have := digit_mem _ _ h; simp at this

theorem rankStr_inj (r s : Option ℤ) (h : rankStr r = rankStr s) : r = s := by
  have dne : ∀ n : ℕ, ∃ c l, Nat.toDigits 10 n = c :: l ∧ c.isDigit = true := by
    intro n
    cases he : Nat.toDigits 10 n with
    | nil => exact absurd he Nat.toDigits_ne_nil
    | cons c l => exact ⟨c, l, rfl, digit_mem n c (by rw [he]; simp)⟩
  have hnone : ∀ n : ℤ, rankStr none ≠ rankStr (some n) := by
    intro n he
    obtain ⟨c, l, e1, e2⟩ := dne n.natAbs
    rw [rankStr, rankStr] at he
    by_cases hn : n < 0
    · rw [if_pos hn] at he; simp at he
    · rw [if_neg hn, e1, List.nil_append] at he
      have : 'N' = c := (List.cons.inj he).1
      rw [← this] at e2; simp at e2
  cases r with
  | none => cases s with
    | none => rfl
    | some n => exact absurd h (hnone n)
  | some m => cases s with
    | none => exact absurd h.symm (hnone m)
    | some n =>
      rw [rankStr, rankStr] at h
      obtain ⟨c, l, e1, e2⟩ := dne m.natAbs
      obtain ⟨c', l', e1', e2'⟩ := dne n.natAbs
      by_cases hm : m < 0 <;> by_cases hn : n < 0
      · rw [if_pos hm, if_pos hn] at h
        have := digits_inj _ _ (List.append_cancel_left h)
        rw [Option.some.injEq]; omega
      · rw [if_pos hm, if_neg hn, e1', List.nil_append] at h
        have : '-' = c' := (List.cons.inj h).1
        rw [← this] at e2'; simp at e2'
      · rw [if_neg hm, if_pos hn, e1, List.nil_append] at h
        have : c = '-' := (List.cons.inj h).1
        rw [this] at e2; simp at e2
      · rw [if_neg hm, if_neg hn] at h
        have := digits_inj _ _ h
        rw [Option.some.injEq]; omega

theorem split_last (a b c d : List Char) (hb : ':' ∉ b) (hd : ':' ∉ d) (h : a ++ ':' :: b = c ++ ':' :: d) : a = c ∧ b = d := by
  rcases List.append_eq_append_iff.1 h with ⟨e, h1, h2⟩ | ⟨e, h1, h2⟩
  · cases e with
    | nil => simp at h1 h2; exact ⟨h1.symm, h2⟩
    | cons x xs =>
      rw [List.cons_append] at h2
      obtain ⟨_, h3⟩ := List.cons.inj h2
      exact absurd (by rw [h3]; simp) hb
  · cases e with
    | nil => simp at h1 h2; exact ⟨h1, h2.symm⟩
    | cons x xs =>
      rw [List.cons_append] at h2
      obtain ⟨_, h3⟩ := List.cons.inj h2
      exact absurd (by rw [h3]; simp) hd

/-- **C151.** What is remembered for one file and choice of ranks is never given for another, even if there are colons in the names. -/
theorem key_inj (f g : List Char) (a b c d : Option ℤ) (h : key f a b = key g c d) : f = g ∧ a = c ∧ b = d := by
  unfold key at h
  have h' : (f ++ ':' :: rankStr a) ++ ':' :: rankStr b = (g ++ ':' :: rankStr c) ++ ':' :: rankStr d := by simpa using h
  obtain ⟨h1, h2⟩ := split_last _ _ _ _ (rankStr_colon b) (rankStr_colon d) h'
  obtain ⟨h3, h4⟩ := split_last _ _ _ _ (rankStr_colon a) (rankStr_colon c) h1
  exact ⟨h3, rankStr_inj _ _ h4, rankStr_inj _ _ h2⟩

/-! ## An example: a line across the date line with a short and a long step -/

/-- The line. -/
def exLine : Line := ⟨3, 600000, -600000, (600000, 36000), [(-5, 7), (-1200000, 100000)]⟩

/-- The file: header, dictionary and the line. -/
def exFile : List ℕ := le32 0x20770002 ++ le32 40 ++ le32 1 ++ List.replicate 28 0 ++
  (List.replicate 12 0 ++ le32 600000 ++ le32 (-600000) ++ le32 68 ++ [0, 0] ++ le16 3) ++
  (le32 600000 ++ le32 36000 ++ [0, 0, 0, 0] ++ le16 2 ++ [0, 0] ++ [7, 251, 237, 191, 128, 176, 1, 0, 160, 134])

theorem exFile_isMap : IsMap exFile [exLine] := by
  refine ⟨40, 66 + 16, exFile.drop 12, by decide, by decide, by decide, by decide +kernel, by decide +kernel, ?_⟩
  have e : exFile.drop (40 : ℤ).toNat = List.replicate 12 0 ++ le32 exLine.maxlong ++ le32 exLine.minlong ++ le32 68 ++ [0, 0] ++ le16 exLine.rank ++ exFile.drop 68 := by
    decide +kernel
  rw [e]
  refine HasDict.cons exLine [] 68 _ _ _ rfl rfl ?_ (by decide) (by decide) (by decide) (by decide) (.nil _)
  refine ⟨by decide, by decide, by decide, by decide, [0, 0, 0, 0], [0, 0], [7, 251, 237, 191, 128, 176, 1, 0, 160, 134], [], rfl, rfl, ?_, by decide +kernel⟩
  have h1 := StepCode.short (-5) 7 (by decide) (by decide) (by decide) (by decide)
  have h2 := StepCode.long (-1200000) 100000 (by decide) (by decide) (by decide) (by decide)
  have := StepsCode.cons h1 (StepsCode.cons h2 .nil)
  have e : ([7, 251, 237, 191, 128, 176, 1, 0, 160, 134] : List ℕ) = _ := rfl
  exact this

example : readfile .py3 none none exFile = .error .type := lines_fail exFile [exLine] exFile_isMap ⟨exLine, by simp, by decide⟩ none none

example : (readfile .py2 (some 2) none exFile).toOption = some [some (600000 / 3600, 10), some (599995 / 3600, 36007 / 3600), some (-600005 / 3600 + 360, 136007 / 3600)] := by
  decide +kernel

end PyX.Graph.Cbd
