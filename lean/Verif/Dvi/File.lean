import Mathlib.Algebra.Order.Field.Basic
import Mathlib.Data.Rat.Defs
import Mathlib.Tactic.FieldSimp
import Mathlib.Tactic.NormNum
import Mathlib.Tactic.Ring
import Verif.Reader.Props
import Verif.TeXFont.TfmFileProps

/-!
# DVI files: preamble, pages and postamble (`pyx/dvi/dvifile.py:362-430`)

What is between `bop` and `eop` is C28 and C29; here a page is what a reader `body` makes of it (`dvifile.py:431-620`).
-/

set_option linter.unusedSectionVars false
set_option linter.unusedSimpArgs false

namespace PyX.Dvi.File

open PyX.Reader (Rd readU read put)
open PyX.Tfm (andThen ret fail many)

/-- The numbers of the preamble. -/
structure Pre where
  num : ℕ
  den : ℕ
  mag : ℕ
deriving DecidableEq, Repr

/-- `self.tfmconv` (`dvifile.py:380`). -/
def Pre.tfmconv (p : Pre) : ℚ := (25400000 / p.num) * (p.den / 473628672) / 16

/-- `self.conv` (`dvifile.py:384-385`) for the resolution 300. -/
def Pre.conv (p : Pre) : ℚ := (p.num / 254000) * (300 / p.den)

/-- `self.pyxconv` (`dvifile.py:393`). -/
def Pre.pyxconv (p : Pre) : ℚ := p.mag / 1000 * p.conv / 300 * 72

/-- After the command `pre` (`dvifile.py:370-399`); division by zero is an exception. -/
def preBody : Rd Pre :=
  andThen (readU 1) fun v => if v ≠ 2 then fail else
  andThen (readU 4) fun num => andThen (readU 4) fun den => andThen (readU 4) fun mag =>
  if num = 0 ∨ den = 0 then fail else
  andThen (readU 1) fun k => fun s => some (⟨num, den, mag⟩, (read k s).2)

/-- `_read_pre` (`dvifile.py:362-401`). -/
def readPre : Rd Pre
  | [] => none
  | c :: s => if c = 138 then readPre s else if c = 247 then preBody s else none

/-- The begin of a page after the command `bop`: the ten numbers and the pointer (`dvifile.py:415-420`). -/
def bopBody (pageid : Option (List ℕ)) : Rd (List ℕ) :=
  andThen (many (readU 4) 10) fun ids => match pageid with
    | some id => if ids ≠ id then fail else andThen (readU 4) fun _ => ret ids
    | none => andThen (readU 4) fun _ => ret ids

/-- The first loop of `readpage` (`dvifile.py:410-426`): the numbers of the page, or `None` at the end. -/
def nextPage (pageid : Option (List ℕ)) : Rd (Option (List ℕ))
  | [] => none
  | c :: s =>
    if c = 138 then nextPage pageid s
    else if c = 139 then andThen (bopBody pageid) (fun ids => ret (some ids)) s
    else if c = 248 then some (none, s)
    else none

/-- `readpage` for all pages, each with the number it should have, and once more for the end (as in `text.py:858, 1248`). -/
def pages {β : Type} (body : Rd β) : List (Option (List ℕ)) → Rd (List (List ℕ × β))
  | [] => andThen (nextPage none) fun r => if r.isSome then fail else ret []
  | id :: l => andThen (nextPage id) fun r => match r with
    | none => fail
    | some ids => andThen body fun v => andThen (pages body l) fun rest => ret ((ids, v) :: rest)

/-- All of a file. -/
def dvifile {β : Type} (body : Rd β) (l : List (Option (List ℕ))) : Rd (Pre × List (List ℕ × β)) :=
  andThen readPre fun p => andThen (pages body l) fun ps => ret (p, ps)

/-! ## What is expected -/

/-- `nop`s. -/
def nops (n : ℕ) : List ℕ := List.replicate n 138

/-- A page of a file: `nop`s before it, its ten numbers, the pointer to the page before, and the commands up to and with `eop`. -/
structure Page where
  skip : ℕ
  ids : List ℕ
  pointer : ℕ
  commands : List ℕ

def Page.bytes (p : Page) : List ℕ := nops p.skip ++ (139 :: (p.ids.flatMap (put 4) ++ (put 4 p.pointer ++ p.commands)))

structure Page.OK (p : Page) : Prop where
  ten : p.ids.length = 10
  ids : ∀ i ∈ p.ids, i < 2 ^ 32
  pointer : p.pointer < 2 ^ 32

/-- A file. -/
structure Contents where
  skip : ℕ
  pre : Pre
  comment : List ℕ
  pages : List Page
  skip' : ℕ
  post : List ℕ

def Contents.preBytes (T : Contents) : List ℕ :=
  nops T.skip ++ (247 :: (put 1 2 ++ (put 4 T.pre.num ++ (put 4 T.pre.den ++ (put 4 T.pre.mag ++ (put 1 T.comment.length ++ T.comment))))))

def Contents.bytes (T : Contents) : List ℕ := T.preBytes ++ (T.pages.flatMap Page.bytes ++ (nops T.skip' ++ (248 :: T.post)))

structure Contents.OK (T : Contents) : Prop where
  num : 0 < T.pre.num ∧ T.pre.num < 2 ^ 32
  den : 0 < T.pre.den ∧ T.pre.den < 2 ^ 32
  mag : T.pre.mag < 2 ^ 32
  comment : T.comment.length < 256
  pages : ∀ p ∈ T.pages, p.OK

/-! ## Proofs -/

open PyX.Tfm (andThen_some many_flatMap)

theorem readPre_nops (n : ℕ) (s : List ℕ) : readPre (nops n ++ s) = readPre s := by
  induction n with
  | zero => rfl
  | succ n ih => rw [nops, List.replicate_succ, List.cons_append, readPre, if_pos rfl]; exact ih

theorem nextPage_nops (id : Option (List ℕ)) (n : ℕ) (s : List ℕ) : nextPage id (nops n ++ s) = nextPage id s := by
  induction n with
  | zero => rfl
  | succ n ih => rw [nops, List.replicate_succ, List.cons_append, nextPage, if_pos rfl]; exact ih

theorem pre_read {T : Contents} (h : T.OK) (rest : List ℕ) : readPre (T.preBytes ++ rest) = some (T.pre, rest) := by
  unfold Contents.preBytes
  rw [List.append_assoc, readPre_nops]
  simp only [List.cons_append, List.append_assoc]
  rw [readPre, if_neg (by decide), if_pos rfl]
  unfold preBody
  rw [andThen_some (Reader.readU_put 1 2 (by decide) _), if_neg (by decide), andThen_some (Reader.readU_put 4 _ (by simpa using h.num.2) _),
    andThen_some (Reader.readU_put 4 _ (by simpa using h.den.2) _), andThen_some (Reader.readU_put 4 _ (by simpa using h.mag) _),
    if_neg (by have := h.num.1; have := h.den.1; omega), andThen_some (Reader.readU_put 1 _ (by simpa using h.comment) _)]
  simp only [Reader.read, List.drop_left]

/-- The number asked for is the one of the page, if any is asked for. -/
def Asked (id : Option (List ℕ)) (p : Page) : Prop := ∀ i, id = some i → i = p.ids

theorem nextPage_page {p : Page} (h : p.OK) {id : Option (List ℕ)} (hi : Asked id p) (rest : List ℕ) :
    nextPage id (p.bytes ++ rest) = some (some p.ids, p.commands ++ rest) := by
  unfold Page.bytes
  rw [List.append_assoc, nextPage_nops]
  simp only [List.cons_append, List.append_assoc]
  rw [nextPage, if_neg (by decide), if_pos rfl]
  have hm : many (readU 4) 10 (p.ids.flatMap (put 4) ++ (put 4 p.pointer ++ (p.commands ++ rest))) = some (p.ids, put 4 p.pointer ++ (p.commands ++ rest)) := by
    have := many_flatMap (readU 4) (put 4) (fun x => x) p.ids (fun x hx rest => Reader.readU_put 4 x (by simpa using h.ids x hx) rest) (put 4 p.pointer ++ (p.commands ++ rest))
    rw [h.ten, List.map_id'] at this
    exact this
  have hb : bopBody id (p.ids.flatMap (put 4) ++ (put 4 p.pointer ++ (p.commands ++ rest))) = some (p.ids, p.commands ++ rest) := by
    unfold bopBody
    rw [andThen_some hm]
    cases id with
    | none =>
      dsimp only
      rw [andThen_some (Reader.readU_put 4 _ (by simpa using h.pointer) _)]
      rfl
    | some i =>
      dsimp only
      rw [hi i rfl, if_neg (by simp), andThen_some (Reader.readU_put 4 _ (by simpa using h.pointer) _)]
      rfl
  rw [andThen_some hb]
  rfl

theorem pages_read {β : Type} (body : Rd β) : ∀ (ps : List Page) (ids : List (Option (List ℕ))) (vs : List β) (_ : ps.length = ids.length) (_ : ps.length = vs.length)
    (_ : ∀ p ∈ ps, p.OK) (_ : ∀ x ∈ ids.zip ps, Asked x.1 x.2) (_ : ∀ x ∈ ps.zip vs, ∀ rest, body (x.1.commands ++ rest) = some (x.2, rest)) (k : ℕ) (post : List ℕ),
    pages body ids (ps.flatMap Page.bytes ++ (nops k ++ (248 :: post))) = some ((ps.map Page.ids).zip vs, post)
  | [], [], [], _, _, _, _, _, k, post => by
    rw [pages, List.flatMap_nil, List.nil_append, andThen_some (v := none) (s' := post) (by rw [nextPage_nops]; rfl)]
    rfl
  | p :: ps, id :: ids, v :: vs, h1, h2, h3, h4, h5, k, post => by
    rw [pages, List.flatMap_cons, List.append_assoc, andThen_some (nextPage_page (h3 p (by simp)) (h4 (id, p) (by simp)) _)]
    dsimp only
    rw [andThen_some (h5 (p, v) (by simp) _), andThen_some (pages_read body ps ids vs (by simpa using h1) (by simpa using h2) (fun p hp => h3 p (by simp [hp]))
      (fun x hx => h4 x (by simp [hx])) (fun x hx => h5 x (by simp [hx])) k post)]
    rfl
  | [], _ :: _, _, h, _, _, _, _, _, _ => by simp at h
  | [], [], _ :: _, _, h, _, _, _, _, _ => by simp at h
  | _ :: _, [], _, h, _, _, _, _, _, _ => by simp at h
  | _ :: _, _ :: _, [], _, h, _, _, _, _, _ => by simp at h

/-- **C157.** From a DVI file with `nop`s anywhere between its parts, all pages are read in their order, if they have the numbers asked for; after the last one the end of the file
is found. -/
theorem dvi_pages {β : Type} (body : Rd β) {T : Contents} (h : T.OK) (ids : List (Option (List ℕ))) (vs : List β) (h1 : T.pages.length = ids.length) (h2 : T.pages.length = vs.length)
    (h4 : ∀ x ∈ ids.zip T.pages, Asked x.1 x.2) (h5 : ∀ x ∈ T.pages.zip vs, ∀ rest, body (x.1.commands ++ rest) = some (x.2, rest)) :
    dvifile body ids T.bytes = some ((T.pre, (T.pages.map Page.ids).zip vs), T.post) := by
  unfold dvifile Contents.bytes
  rw [andThen_some (pre_read h _), andThen_some (pages_read body T.pages ids vs h1 h2 h.pages h4 h5 _ _)]
  rfl

/-- **C157.** A page with another number than that asked for is an error. -/
theorem dvi_page_number {p : Page} (h : p.OK) (id : List ℕ) (hi : id ≠ p.ids) (rest : List ℕ) : nextPage (some id) (p.bytes ++ rest) = none := by
  unfold Page.bytes
  rw [List.append_assoc, nextPage_nops]
  simp only [List.cons_append, List.append_assoc]
  rw [nextPage, if_neg (by decide), if_pos rfl]
  have hm : many (readU 4) 10 (p.ids.flatMap (put 4) ++ (put 4 p.pointer ++ (p.commands ++ rest))) = some (p.ids, put 4 p.pointer ++ (p.commands ++ rest)) := by
    have := many_flatMap (readU 4) (put 4) (fun x => x) p.ids (fun x hx rest => Reader.readU_put 4 x (by simpa using h.ids x hx) rest) (put 4 p.pointer ++ (p.commands ++ rest))
    rw [h.ten, List.map_id'] at this
    exact this
  have hb : bopBody (some id) (p.ids.flatMap (put 4) ++ (put 4 p.pointer ++ (p.commands ++ rest))) = none := by
    unfold bopBody
    rw [andThen_some hm]
    dsimp only
    rw [if_pos (fun h => hi h.symm)]
    rfl
  unfold andThen
  rw [hb]

/-- **C157.** Another version of the format than 2 is an error, even after `nop`s. -/
theorem dvi_version (n v : ℕ) (hv : v < 256) (h2 : v ≠ 2) (s : List ℕ) : readPre (nops n ++ (247 :: (put 1 v ++ s))) = none := by
  rw [readPre_nops, readPre, if_neg (by decide), if_pos rfl]
  unfold preBody
  rw [andThen_some (Reader.readU_put 1 v (by simpa using hv) s)]
  rw [if_pos h2]
  rfl

/-- **C157.** One page more in the file than asked for is an error. -/
theorem dvi_more_pages {β : Type} (body : Rd β) {p : Page} (h : p.OK) (rest : List ℕ) : pages body [] (p.bytes ++ rest) = none := by
  rw [pages, andThen_some (nextPage_page (id := none) h (by simp [Asked]) rest)]
  rfl

/-- **C157.** One page less in the file than asked for is an error. -/
theorem dvi_less_pages {β : Type} (body : Rd β) (id : Option (List ℕ)) (l : List (Option (List ℕ))) (k : ℕ) (post : List ℕ) : pages body (id :: l) (nops k ++ (248 :: post)) = none := by
  rw [pages, andThen_some (v := none) (s' := post) (by rw [nextPage_nops]; rfl)]
  rfl

/-- **C157, violated.** Font definitions are allowed between any two commands of a DVI file; between pages they are refused. -/
theorem dvi_fontdef_refused (id : Option (List ℕ)) (n c : ℕ) (hc : 243 ≤ c ∧ c ≤ 246) (s : List ℕ) : nextPage id (nops n ++ (c :: s)) = none ∧ readPre (nops n ++ (c :: s)) = none := by
  rw [nextPage_nops, readPre_nops, nextPage, readPre, if_neg (by omega), if_neg (by omega), if_neg (by omega), if_neg (by omega), if_neg (by omega)]
  exact ⟨rfl, rfl⟩

/-- **C157.** Units: a unit of the DVI file is `num / den` times 10^-7 m, magnified by `mag / 1000`, in points of which 72 are an inch; and `tfmconv` of them, not magnified, are 2^-20 TeX points, of which
72.27 are an inch. -/
theorem dvi_units (p : Pre) (hn : 0 < p.num) (hd : 0 < p.den) :
    p.pyxconv * (254 / 10000 / 72) = p.mag / 1000 * (p.num / p.den * (1 / 10 ^ 7)) ∧
    p.tfmconv * (p.num / p.den * (1 / 10 ^ 7)) * 2 ^ 20 = 254 / 10000 / (7227 / 100) := by
  have h1 : (p.num : ℚ) ≠ 0 := by exact_mod_cast hn.ne'
  have h2 : (p.den : ℚ) ≠ 0 := by exact_mod_cast hd.ne'
  unfold Pre.pyxconv Pre.tfmconv Pre.conv
  constructor
  · field_simp; ring
  · field_simp; ring

/-- The preamble TeX writes: one unit is 1/65536 of a TeX point. -/
theorem ex_units : (⟨25400000, 473628672, 1000⟩ : Pre).tfmconv = 1 / 16 ∧ (⟨25400000, 473628672, 1000⟩ : Pre).pyxconv = 72 / (7227 / 100) / 65536 := by
  unfold Pre.pyxconv Pre.tfmconv Pre.conv
  constructor <;> norm_num

/-- A file with two pages whose commands are only `eop`. -/
def exFile : Contents where
  skip := 1
  pre := ⟨25400000, 473628672, 1000⟩
  comment := [84, 101, 88]
  pages := [⟨0, [80, 121, 88, 1, 0, 0, 0, 0, 0, 0], 4294967295, [140]⟩, ⟨2, [80, 121, 88, 2, 0, 0, 0, 0, 0, 0], 19, [140]⟩]
  skip' := 0
  post := []

theorem ex_file : exFile.OK ∧ dvifile (fun s => match s with
    | 140 :: s => some ((), s)
    | _ => none) [some [80, 121, 88, 1, 0, 0, 0, 0, 0, 0], none] exFile.bytes =
      some ((⟨25400000, 473628672, 1000⟩, [([80, 121, 88, 1, 0, 0, 0, 0, 0, 0], ()), ([80, 121, 88, 2, 0, 0, 0, 0, 0, 0], ())]), []) := by
  refine ⟨⟨by decide, by decide, by decide, by decide, ?_⟩, by decide +kernel⟩
  intro p hp
  simp only [exFile, List.mem_cons, List.not_mem_nil, or_false] at hp
  rcases hp with rfl | rfl <;> exact ⟨rfl, by decide, by decide⟩

end PyX.Dvi.File
