import Verif.Util.Dict
import Mathlib.Data.List.Infix
import Mathlib.Data.Rat.Defs
import Mathlib.Tactic.NormNum
import Mathlib.Data.Real.Basic

/-!
# Files which are written (`document.py`, `canvas.py`): model and C145
-/

set_option linter.unusedSectionVars false

namespace PyX.Output

open PyX.Util PyX.Util.Dict

/-! ## Model -/

/-- What can be reached from outside: the files, standard output, an object given by the user, and whether one of the last two has been closed. -/
structure World where
  files : List Char → Option (List UInt8)
  stdout : List UInt8
  object : List UInt8
  closed : Bool

/-- The argument `file`: nothing, a string, an object with a method `write` for bytes, or anything else. -/
inductive Arg
  | nothing
  | name (s : List Char)
  | object
  | other

/-- How a call ends: it returns, the writer raises an exception, or there is a RuntimeError or ValueError from this code. -/
inductive Outcome
  | done
  | failed
  | runtimeError
  | valueError
  deriving DecidableEq

/-- A suffix with its dot. -/
def dot (suffix : List Char) : List Char := '.' :: suffix

/-- `open(name, "wb")`, writing by a writer which may raise an exception in between, and closing by `with`.  Opening always succeeds here. -/
def toFile (w : World) (name : List Char) (out : List UInt8 × Bool) : World × Outcome :=
  ({ w with files := fun n => if n = name then some out.1 else w.files n }, if out.2 then .done else .failed)

/-- `_outputstream` and the `with` around a writer (`document.py:153-199`); `argv` is `sys.argv[0]`, `out` what the writer writes and whether it returns. -/
def write (argv suffix : List Char) (arg : Arg) (out : List UInt8 × Bool) (w : World) : World × Outcome :=
  match arg with
  | .nothing => if dot "py".toList <:+ argv then toFile w (argv.take (argv.length - 3) ++ dot suffix) out else (w, .runtimeError)
  | .name s =>
    if s = ['-'] then ({ w with stdout := w.stdout ++ out.1 }, if out.2 then .done else .failed)
    else if dot suffix <:+ s then toFile w s out
    else toFile w (s ++ dot suffix) out
  | .object => ({ w with object := w.object ++ out.1 }, if out.2 then .done else .failed)
  | .other => (w, .valueError)

/-- The formats in the order of `writetofile` (`document.py:202-205`). -/
def formats : List (List Char) := ["eps".toList, "ps".toList, "pdf".toList, "svg".toList]

/-- `writetofile` (`document.py:201-210`); `out` are the four writers. -/
def writetofile (name : List Char) (out : List Char → List UInt8 × Bool) (w : World) : World × Outcome :=
  match formats.find? fun s => decide (dot s <:+ name) with
  | some s => toFile w name (out s)
  | none => (w, .valueError)

/-- A prefix of a keyword is removed. -/
def strip (p k : List Char) : Option (List Char) := if p <+: k then some (k.drop p.length) else none

variable {V : Type*}

/-- One turn of the loop of `_wrappedindocument` (`canvas.py:38-46`): the keywords for the page and for the writer. -/
def wrapStep (st : Dict (List Char) V × Dict (List Char) V) (kv : List Char × V) : Dict (List Char) V × Dict (List Char) V :=
  match strip "page_".toList kv.1 with
  | some r => (dset st.1 r kv.2, st.2)
  | none =>
    match strip "write_".toList kv.1 with
    | some r => (st.1, dset st.2 r kv.2)
    | none => (dset st.1 kv.1 kv.2, st.2)

/-- `_wrappedindocument` (`canvas.py:34-51`). -/
def wrap (kwargs : Dict (List Char) V) : Dict (List Char) V × Dict (List Char) V := kwargs.foldl wrapStep ([], [])

/-- The file name and device of `writeGSfile` (`canvas.py:458-473`); without a name and without a device there is an AttributeError, here also none. -/
def gsTarget (argv : List Char) (filename device : Option (List Char)) : Option (List Char × List Char) :=
  match filename, device with
  | none, none => none
  | none, some d =>
    if dot "py".toList <:+ argv then
      some (argv.take (argv.length - 2) ++ (if "png".toList <+: d then "png".toList else if "jpeg".toList <+: d then "jpg".toList else d), d)
    else none
  | some f, some d => some (f, d)
  | some f, none =>
    if dot "png".toList <:+ f then some (f, "png16m".toList)
    else if dot "jpg".toList <:+ f then some (f, "jpeg".toList)
    else none

/-- Paper formats: name, width and height in millimetres (`document.py:35-43`; the inch formats with 25.4). -/
def papers : List (List Char × ℚ × ℚ) :=
  [("A5".toList, 297 / 2, 210), ("A4".toList, 210, 297), ("A3".toList, 297, 420), ("A2".toList, 420, 594), ("A1".toList, 594, 840), ("A0".toList, 840, 1188),
   ("A0b".toList, 910, 1370), ("Letter".toList, 17 / 2 * 127 / 5, 11 * 127 / 5), ("Legal".toList, 17 / 2 * 127 / 5, 14 * 127 / 5)]

/-- `capitalize`, for ASCII. -/
def capitalize : List Char → List Char
  | [] => []
  | c :: s => c.toUpper :: s.map Char.toLower

/-- `_paperformatfromstring` (`document.py:45-46`); none for the AttributeError.  Other attributes of the class (`__init__`, …) are left out. -/
def paperFrom (name : List Char) : Option (ℚ × ℚ) := (papers.find? fun e => e.1 = capitalize name).map Prod.snd

/-! ## Where the output goes -/

/-- Specification: the place of the output. -/
inductive Place
  | file (name : List Char)
  | stdout
  | object

/-- Specification: the content of a place. -/
def World.at (w : World) : Place → Option (List UInt8)
  | .file n => w.files n
  | .stdout => some w.stdout
  | .object => some w.object

/-- Specification of the call: the place for an argument.  A string gets the suffix if it does not have it; without an argument the suffix of the script is replaced. -/
inductive Goes (argv suffix : List Char) : Arg → Place → Prop
  | script (base : List Char) (h : argv = base ++ ".py".toList) : Goes argv suffix .nothing (.file (base ++ '.' :: suffix))
  | dash : Goes argv suffix (.name ['-']) .stdout
  | full (base : List Char) : Goes argv suffix (.name (base ++ '.' :: suffix)) (.file (base ++ '.' :: suffix))
  | bare (s : List Char) (h1 : s ≠ ['-']) (h2 : ∀ base, s ≠ base ++ '.' :: suffix) : Goes argv suffix (.name s) (.file (s ++ '.' :: suffix))
  | object : Goes argv suffix .object .object

theorem dash_no_suffix (suffix base : List Char) : base ++ '.' :: suffix ≠ ['-'] := by
  intro h
  cases base with
  | nil =>
    simp only [List.nil_append, List.cons.injEq] at h
    exact absurd h.1 (by decide)
  | cons c b =>
    simp only [List.cons_append, List.cons.injEq] at h
    exact absurd h.2 (by simp)

/-- **C145 (place).** If the argument has a place, the output is there: a file is replaced by the output, standard output and objects get it at their end, nothing else is changed,
and objects and standard output remain open. -/
theorem write_goes (argv suffix : List Char) (arg : Arg) (p : Place) (h : Goes argv suffix arg p) (out : List UInt8 × Bool) (w : World) :
    (write argv suffix arg out w).1.at p = some ((match p with | .file _ => [] | .stdout => w.stdout | .object => w.object) ++ out.1) ∧
    (∀ q, q ≠ p → (write argv suffix arg out w).1.at q = w.at q) ∧ (write argv suffix arg out w).1.closed = w.closed ∧
    ((write argv suffix arg out w).2 = .done ↔ out.2 = true) := by
  have hf : ∀ name : List Char, (toFile w name out).1.at (.file name) = some ([] ++ out.1) ∧ (∀ q, q ≠ Place.file name → (toFile w name out).1.at q = w.at q) ∧
      (toFile w name out).1.closed = w.closed ∧ ((toFile w name out).2 = .done ↔ out.2 = true) := by
    intro name
    refine ⟨by simp [toFile, World.at], ?_, rfl, ?_⟩
    · intro q hq
      cases q with
      | file n =>
        have : n ≠ name := fun e => hq (by rw [e])
        simp [toFile, World.at, this]
      | stdout => rfl
      | object => rfl
    · unfold toFile
      cases out.2 <;> simp
  cases h with
  | script base h =>
    have h1 : dot "py".toList <:+ argv := ⟨base, h.symm⟩
    have h2 : argv.take (argv.length - 3) = base := by
      rw [h, List.length_append]
      show List.take (base.length + 3 - 3) _ = _
      rw [Nat.add_sub_cancel, List.take_left]
    have e : write argv suffix .nothing out w = toFile w (base ++ '.' :: suffix) out := by
      show (if dot "py".toList <:+ argv then _ else _) = _
      rw [if_pos h1, h2]; rfl
    rw [e]
    exact hf _
  | dash =>
    have e : write argv suffix (.name ['-']) out w = ({ w with stdout := w.stdout ++ out.1 }, if out.2 then .done else .failed) := by
      unfold write
      simp
    rw [e]
    refine ⟨rfl, ?_, rfl, ?_⟩
    · intro q hq
      cases q with
      | file n => rfl
      | stdout => exact absurd rfl hq
      | object => rfl
    · cases out.2 <;> simp
  | full base =>
    have e : write argv suffix (.name (base ++ '.' :: suffix)) out w = toFile w (base ++ '.' :: suffix) out := by
      show (if (base ++ '.' :: suffix) = ['-'] then _ else if dot suffix <:+ (base ++ '.' :: suffix) then _ else _) = _
      rw [if_neg (dash_no_suffix suffix base), if_pos ⟨base, rfl⟩]
    rw [e]
    exact hf _
  | bare s h1 h2 =>
    have e : write argv suffix (.name s) out w = toFile w (s ++ '.' :: suffix) out := by
      show (if s = ['-'] then _ else if dot suffix <:+ s then _ else _) = _
      rw [if_neg h1, if_neg (fun ⟨b, hb⟩ => h2 b hb.symm)]; rfl
    rw [e]
    exact hf _
  | object =>
    refine ⟨rfl, ?_, rfl, ?_⟩
    · intro q hq
      cases q with
      | file n => rfl
      | stdout => rfl
      | object => exact absurd rfl hq
    · show (if out.2 then Outcome.done else Outcome.failed) = .done ↔ _
      cases out.2 <;> simp

/-- **C145 (no place).** Otherwise there is an exception and nothing is changed: for a script without `.py`, and for an argument which is no string and cannot be written to. -/
theorem write_nowhere (argv suffix : List Char) (arg : Arg) (h : ∀ p, ¬ Goes argv suffix arg p) (out : List UInt8 × Bool) (w : World) :
    (write argv suffix arg out w).1 = w ∧ ((write argv suffix arg out w).2 = .runtimeError ∨ (write argv suffix arg out w).2 = .valueError) := by
  cases arg with
  | nothing =>
    have hn : ¬ dot "py".toList <:+ argv := by
      rintro ⟨b, hb⟩
      exact h _ (.script b hb.symm)
    have e : write argv suffix .nothing out w = (w, .runtimeError) := by
      show (if dot "py".toList <:+ argv then _ else _) = _
      rw [if_neg hn]
    rw [e]; exact ⟨rfl, .inl rfl⟩
  | name s =>
    exfalso
    by_cases h1 : s = ['-']
    · subst h1; exact h _ .dash
    · by_cases h2 : ∃ b, s = b ++ '.' :: suffix
      · obtain ⟨b, rfl⟩ := h2
        exact h _ (.full b)
      · exact h _ (.bare s h1 fun b hb => h2 ⟨b, hb⟩)
  | object => exact absurd .object (h _)
  | other => exact ⟨rfl, .inr rfl⟩

/-- The place is unique. -/
theorem goes_unique (argv suffix : List Char) (arg : Arg) (p q : Place) (hp : Goes argv suffix arg p) (hq : Goes argv suffix arg q) : p = q := by
  by_contra hne
  have h1 := (write_goes argv suffix arg p hp ([1], true) ⟨fun _ => none, [], [], false⟩).2.1 q (Ne.symm hne)
  have h2 := (write_goes argv suffix arg q hq ([1], true) ⟨fun _ => none, [], [], false⟩).1
  rw [h1] at h2
  cases q <;> simp [World.at] at h2

/-- **C145 (script).** The script itself is never overwritten by its output. -/
theorem script_kept (argv suffix : List Char) (hs : suffix ∈ formats) (out : List UInt8 × Bool) (w : World) :
    (write argv suffix .nothing out w).1.files argv = w.files argv := by
  by_cases h : ∃ base, argv = base ++ ".py".toList
  · obtain ⟨base, hb⟩ := h
    have := (write_goes argv suffix .nothing _ (.script base hb) out w).2.1 (.file argv) (by
      intro e
      injection e with e
      rw [hb] at e
      have e := List.append_cancel_left e
      have : suffix = "py".toList := by
        have : ('.' :: "py".toList) = '.' :: suffix := e
        injection this with _ h; exact h.symm
      rw [this] at hs
      revert hs
      decide +kernel)
    exact this
  · have := (write_nowhere argv suffix .nothing (by
      rintro p hp
      cases hp with
      | script b hb => exact h ⟨b, hb⟩) out w).1
    rw [this]

example : Goes "plot.py".toList "pdf".toList .nothing (.file "plot.pdf".toList) := .script "plot".toList (by decide)
example : Goes "plot.py".toList "pdf".toList (.name "a.eps".toList) (.file "a.eps.pdf".toList) := .bare "a.eps".toList (by decide) (by
  intro b hb
  have : dot "pdf".toList <:+ "a.eps".toList := ⟨b, hb.symm⟩
  revert this
  decide +kernel)

/-- A writer which raises an exception has already cost the old content of the file: an EPS or SVG file of a document with two pages (`pswriter.py:149-150`,
`svgwriter.py:193-194`, raised before anything is written) is replaced by an empty file. -/
theorem old_content_lost (argv suffix base : List Char) (w : World) :
    (write argv suffix (.name (base ++ '.' :: suffix)) ([], false) w).1.files (base ++ '.' :: suffix) = some [] ∧
    (write argv suffix (.name (base ++ '.' :: suffix)) ([], false) w).2 ≠ .done := by
  have h := write_goes argv suffix _ _ (.full base) ([], false) w
  exact ⟨h.1, fun e => by simpa using h.2.2.2.mp e⟩

/-! ## `writetofile` -/

/-- No name has two of the suffixes. -/
theorem one_suffix (name s t : List Char) (hs : s ∈ formats) (ht : t ∈ formats) (h1 : dot s <:+ name) (h2 : dot t <:+ name) : s = t := by
  have key : ∀ s ∈ formats, ∀ t ∈ formats, dot s <:+ dot t → s = t := by decide +kernel
  rcases Nat.le_total (dot s).length (dot t).length with h | h
  · exact key s hs t ht (List.suffix_of_suffix_length_le h1 h2 h)
  · exact (key t ht s hs (List.suffix_of_suffix_length_le h2 h1 h)).symm

/-- **C145 (writetofile).** A file with the name of a format as its suffix gets the output of this format and nothing else is changed. -/
theorem writetofile_format (s base : List Char) (hs : s ∈ formats) (out : List Char → List UInt8 × Bool) (w : World) :
    (writetofile (base ++ '.' :: s) out w).1.at (.file (base ++ '.' :: s)) = some (out s).1 ∧
    (∀ q, q ≠ .file (base ++ '.' :: s) → (writetofile (base ++ '.' :: s) out w).1.at q = w.at q) ∧
    ((writetofile (base ++ '.' :: s) out w).2 = .done ↔ (out s).2 = true) := by
  have hsuf : dot s <:+ base ++ '.' :: s := ⟨base, rfl⟩
  have hfind : formats.find? (fun t => decide (dot t <:+ base ++ '.' :: s)) = some s := by
    cases hf : formats.find? (fun t => decide (dot t <:+ base ++ '.' :: s)) with
    | none =>
      rw [List.find?_eq_none] at hf
      exact absurd (by simpa using hsuf) (hf s hs)
    | some t =>
      have h1 := List.find?_some hf
      rw [one_suffix _ t s (List.mem_of_find?_eq_some hf) hs (by simpa using h1) hsuf]
  unfold writetofile
  rw [hfind]
  refine ⟨by simp [toFile, World.at], ?_, ?_⟩
  · intro q hq
    cases q with
    | file n =>
      have : n ≠ base ++ '.' :: s := fun e => hq (by rw [e])
      simp [toFile, World.at, this]
    | stdout => rfl
    | object => rfl
  · show (if (out s).2 then Outcome.done else Outcome.failed) = .done ↔ _
    cases (out s).2 <;> simp

/-- **C145 (other names).** All other names are refused and nothing is changed. -/
theorem writetofile_other (name : List Char) (h : ∀ s ∈ formats, ∀ base, name ≠ base ++ '.' :: s) (out : List Char → List UInt8 × Bool) (w : World) :
    writetofile name out w = (w, .valueError) := by
  have : formats.find? (fun t => decide (dot t <:+ name)) = none := by
    rw [List.find?_eq_none]
    intro t ht
    simp only [decide_eq_true_eq]
    rintro ⟨b, hb⟩
    exact h t ht b hb.symm
  unfold writetofile
  rw [this]

example : (writetofile "a.eps".toList (fun s => (if s = "eps".toList then [1] else [2], true)) ⟨fun _ => none, [], [], false⟩).1.files "a.eps".toList = some [1] := by decide +kernel

/-! ## Keyword arguments -/

theorem strip_some (p k r : List Char) : strip p k = some r ↔ k = p ++ r := by
  unfold strip
  constructor
  · intro h
    split_ifs at h with hp
    obtain ⟨t, rfl⟩ := hp
    simp only [List.drop_left, Option.some.injEq] at h
    rw [h]
  · rintro rfl
    rw [if_pos ⟨r, rfl⟩, List.drop_left]

theorem dget_cons (e : List Char × V) (l : Dict (List Char) V) (k : List Char) : dget (e :: l) k = if e.1 = k then some e.2 else dget l k := rfl

theorem prefixes_differ (a b : List Char) : "page_".toList ++ a ≠ "write_".toList ++ b := by
  intro h
  have : ('p' : Char) = 'w' := by
    have := congrArg List.head? h
    simp at this
  exact absurd this (by decide)

theorem dget_none_of_not_mem (l : Dict (List Char) V) (k : List Char) (h : k ∉ keys l) : dget l k = none := by
  rw [mem_keys] at h
  simpa using h

/-- **C145 (keywords of the writer).** The writer gets exactly the keywords with `write_`. -/
theorem wrap_write (kwargs : Dict (List Char) V) (hn : (keys kwargs).Nodup) (r : List Char) : dget (wrap kwargs).2 r = dget kwargs ("write_".toList ++ r) := by
  have key : ∀ (l : Dict (List Char) V) (st : Dict (List Char) V × Dict (List Char) V), (keys l).Nodup →
      dget (l.foldl wrapStep st).2 r = (dget l ("write_".toList ++ r)).orElse fun _ => dget st.2 r := by
    intro l
    induction l with
    | nil => intro st _; simp [dget]
    | cons e l ih =>
      intro st hl
      simp only [keys, List.map_cons, List.nodup_cons] at hl
      rw [List.foldl_cons, ih _ hl.2, dget_cons]
      by_cases he : e.1 = "write_".toList ++ r
      · have h1 : strip "page_".toList e.1 = none := by
          cases hs : strip "page_".toList e.1 with
          | none => rfl
          | some x =>
            rw [strip_some] at hs
            exact absurd (hs.symm.trans he) (prefixes_differ x r)
        have h2 : strip "write_".toList e.1 = some r := (strip_some _ _ _).mpr he
        have h3 : dget l ("write_".toList ++ r) = none := dget_none_of_not_mem l _ (by rw [← he]; exact hl.1)
        rw [if_pos he, h3]
        unfold wrapStep
        rw [h1, h2]
        simp [dget_dset]
      · rw [if_neg he]
        congr 1
        funext _
        unfold wrapStep
        cases h1 : strip "page_".toList e.1 with
        | some x => rfl
        | none =>
          cases h2 : strip "write_".toList e.1 with
          | none => rfl
          | some x =>
            simp only
            rw [strip_some] at h2
            have : x ≠ r := fun hx => he (by rw [h2, hx])
            rw [dget_dset, if_neg this]
  unfold wrap
  rw [key kwargs _ hn]
  cases dget kwargs ("write_".toList ++ r) <;> simp [dget]

/-- **C145 (keywords of the page).** The page gets exactly the keywords with `page_` and those without any of the two prefixes (deprecated), if not both are given. -/
theorem wrap_page (kwargs : Dict (List Char) V) (hn : (keys kwargs).Nodup) (r : List Char) (h : r ∉ keys kwargs ∨ "page_".toList ++ r ∉ keys kwargs) :
    dget (wrap kwargs).1 r = if "page_".toList <+: r ∨ "write_".toList <+: r then dget kwargs ("page_".toList ++ r) else
      (dget kwargs ("page_".toList ++ r)).orElse fun _ => dget kwargs r := by
  have key : ∀ (l : Dict (List Char) V) (st : Dict (List Char) V × Dict (List Char) V), (keys l).Nodup → (r ∉ keys l ∨ "page_".toList ++ r ∉ keys l) →
      dget (l.foldl wrapStep st).1 r = ((dget l ("page_".toList ++ r)).orElse fun _ => if "page_".toList <+: r ∨ "write_".toList <+: r then none else dget l r).orElse
        fun _ => dget st.1 r := by
    intro l
    induction l with
    | nil => intro st _ _; simp [dget]
    | cons e l ih =>
      intro st hl hb
      simp only [keys, List.map_cons, List.nodup_cons, List.mem_cons, not_or] at hl hb
      rw [List.foldl_cons, ih _ hl.2 (by rcases hb with hb | hb; exact .inl hb.2; exact .inr hb.2), dget_cons, dget_cons]
      by_cases he : e.1 = "page_".toList ++ r
      · have h2 : strip "page_".toList e.1 = some r := (strip_some _ _ _).mpr he
        have h3 : dget l ("page_".toList ++ r) = none := dget_none_of_not_mem l _ (by rw [← he]; exact hl.1)
        have h4 : dget l r = none := by
          apply dget_none_of_not_mem
          rcases hb with hb | hb
          · exact hb.2
          · exact absurd he.symm hb.1
        rw [if_pos he, h3, h4]
        unfold wrapStep
        rw [h2]
        simp [dget_dset]
      · rw [if_neg he]
        by_cases hr : e.1 = r
        · have h3 : dget l r = none := dget_none_of_not_mem l _ (by rw [← hr]; exact hl.1)
          have h4 : dget l ("page_".toList ++ r) = none := by
            apply dget_none_of_not_mem
            rcases hb with hb | hb
            · exact absurd hr.symm hb.1
            · exact hb.2
          rw [if_pos hr, h3, h4]
          by_cases hp : "page_".toList <+: r ∨ "write_".toList <+: r
          · rw [if_pos hp, if_pos hp]
            simp only [Option.orElse_none]
            unfold wrapStep
            cases h1 : strip "page_".toList e.1 with
            | some x =>
              simp only
              rw [strip_some] at h1
              have : x ≠ r := by
                intro hx
                exact he (by rw [h1, hx])
              rw [dget_dset, if_neg this]
            | none =>
              cases h2 : strip "write_".toList e.1 with
              | some x => rfl
              | none =>
                exfalso
                rw [hr] at h1 h2
                unfold strip at h1 h2
                rcases hp with hp | hp
                · rw [if_pos hp] at h1; cases h1
                · rw [if_pos hp] at h2; cases h2
          · rw [if_neg hp, if_neg hp]
            have h1 : strip "page_".toList e.1 = none := by
              unfold strip
              rw [hr, if_neg fun h => hp (.inl h)]
            have h2 : strip "write_".toList e.1 = none := by
              unfold strip
              rw [hr, if_neg fun h => hp (.inr h)]
            unfold wrapStep
            rw [h1, h2, hr]
            simp [dget_dset]
        · rw [if_neg hr]
          congr 1
          funext _
          unfold wrapStep
          cases h1 : strip "page_".toList e.1 with
          | some x =>
            simp only
            rw [strip_some] at h1
            have : x ≠ r := fun hx => he (by rw [h1, hx])
            rw [dget_dset, if_neg this]
          | none =>
            cases h2 : strip "write_".toList e.1 with
            | some x => rfl
            | none => simp only; rw [dget_dset, if_neg hr]
  unfold wrap
  rw [key kwargs _ hn h]
  split_ifs
  · cases dget kwargs ("page_".toList ++ r) <;> simp [dget]
  · cases dget kwargs ("page_".toList ++ r) <;> cases dget kwargs r <;> simp [dget]

example : wrap [("page_rotated".toList, 1), ("write_title".toList, 2), ("centered".toList, 3)] = ([("rotated".toList, 1), ("centered".toList, 3)], [("title".toList, 2)]) := by decide +kernel

/-- If both are given, the last one is taken. -/
theorem wrap_both : wrap [("page_rotated".toList, 1), ("rotated".toList, 2)] = ([("rotated".toList, 2)], []) ∧
    wrap [("rotated".toList, 2), ("page_rotated".toList, 1)] = ([("rotated".toList, 1)], []) := by decide +kernel

/-! ## Ghostscript -/

/-- **C145 (Ghostscript).** What is given is used; without a device the suffix selects it; without a name the suffix of the script is replaced. -/
theorem gs_spec (argv base f d : List Char) :
    gsTarget argv (some f) (some d) = some (f, d) ∧
    gsTarget argv (some (base ++ ".png".toList)) none = some (base ++ ".png".toList, "png16m".toList) ∧
    gsTarget argv (some (base ++ ".jpg".toList)) none = some (base ++ ".jpg".toList, "jpeg".toList) ∧
    gsTarget (base ++ ".py".toList) none (some ("png".toList ++ d)) = some (base ++ ".png".toList, "png".toList ++ d) ∧
    gsTarget (base ++ ".py".toList) none (some ("jpeg".toList ++ d)) = some (base ++ ".jpg".toList, "jpeg".toList ++ d) ∧
    (¬ "png".toList <+: d → ¬ "jpeg".toList <+: d → gsTarget (base ++ ".py".toList) none (some d) = some (base ++ '.' :: d, d)) := by
  have hp : dot "py".toList <:+ base ++ ".py".toList := ⟨base, rfl⟩
  have ht : (base ++ ".py".toList).take ((base ++ ".py".toList).length - 2) = base ++ ['.'] := by
    have e : base ++ ".py".toList = (base ++ ['.']) ++ "py".toList := by rw [List.append_assoc]; rfl
    rw [e, List.length_append]
    show List.take ((base ++ ['.']).length + 2 - 2) _ = _
    rw [Nat.add_sub_cancel, List.take_left]
  refine ⟨rfl, ?_, ?_, ?_, ?_, ?_⟩
  · show (if dot "png".toList <:+ base ++ ".png".toList then _ else _) = _
    rw [if_pos ⟨base, rfl⟩]
  · show (if dot "png".toList <:+ base ++ ".jpg".toList then _ else if dot "jpg".toList <:+ base ++ ".jpg".toList then _ else _) = _
    have hn : ¬ dot "png".toList <:+ base ++ ".jpg".toList := by
      intro h
      have := List.suffix_of_suffix_length_le h (⟨base, rfl⟩ : ".jpg".toList <:+ base ++ ".jpg".toList) (by decide)
      revert this
      decide +kernel
    rw [if_neg hn, if_pos ⟨base, rfl⟩]
  · show (if dot "py".toList <:+ base ++ ".py".toList then _ else _) = _
    rw [if_pos hp, ht, if_pos ⟨d, rfl⟩, List.append_assoc]; rfl
  · show (if dot "py".toList <:+ base ++ ".py".toList then _ else _) = _
    have hn : ¬ "png".toList <+: "jpeg".toList ++ d := by
      rintro ⟨t, ht⟩
      have := congrArg List.head? ht
      revert this
      simp
    rw [if_pos hp, ht, if_neg hn, if_pos ⟨d, rfl⟩, List.append_assoc]; rfl
  · intro h1 h2
    show (if dot "py".toList <:+ base ++ ".py".toList then _ else _) = _
    rw [if_pos hp, ht, if_neg h1, if_neg h2, List.append_assoc]; rfl

/-! ## Paper formats -/

theorem lower_cases (c : Char) : c.toLower.toLower = c.toLower ∧ c.toLower.toUpper = c.toUpper := by
  by_cases h : c.val ≥ 'A'.val ∧ c.val ≤ 'Z'.val
  · have h1 : 65 ≤ c.toNat := h.1
    have h2 : c.toNat ≤ 90 := h.2
    have hc : c = Char.ofNat c.toNat := (Char.ofNat_toNat c).symm
    rw [hc]
    generalize c.toNat = n at h1 h2
    have key : ∀ n < 91, 65 ≤ n → (Char.ofNat n).toLower.toLower = (Char.ofNat n).toLower ∧ (Char.ofNat n).toLower.toUpper = (Char.ofNat n).toUpper := by decide +kernel
    exact key n (by omega) h1
  · have : c.toLower = c := by
      unfold Char.toLower
      rw [dif_neg h]
    rw [this]
    exact ⟨this, rfl⟩

/-- **C145 (paper formats).** A name in any case selects the format. -/
theorem paper_any_case (e : List Char × ℚ × ℚ) (he : e ∈ papers) (name : List Char) (h : name.map Char.toLower = e.1.map Char.toLower) :
    paperFrom name = some e.2 := by
  have hcap : capitalize name = e.1 := by
    have h1 : ∀ e ∈ papers, capitalize (e.1.map Char.toLower) = e.1 := by decide +kernel
    rw [← h1 e he, ← h]
    cases name with
    | nil => rfl
    | cons c s =>
      simp only [capitalize, List.map_cons, List.map_map, List.cons.injEq]
      refine ⟨(lower_cases c).2.symm, ?_⟩
      apply List.map_congr_left
      intro x _
      show x.toLower = x.toLower.toLower
      rw [(lower_cases x).1]
  have hu : ∀ e ∈ papers, papers.find? (fun f => f.1 = e.1) = some e := by decide +kernel
  unfold paperFrom
  rw [hcap, hu e he]
  rfl

/-- **C145 (halving).** From A0 to A5 each format is the one before cut in the middle of its longer side. -/
theorem papers_halve : ∀ pair ∈ [("A0", "A1"), ("A1", "A2"), ("A2", "A3"), ("A3", "A4"), ("A4", "A5")],
    ∃ w h, paperFrom (pair.1 : String).toList = some (w, h) ∧ paperFrom (pair.2 : String).toList = some (h / 2, w) := by
  intro pair hp
  simp only [List.mem_cons, List.not_mem_nil, or_false] at hp
  rcases hp with rfl | rfl | rfl | rfl | rfl
  · exact ⟨840, 1188, by decide +kernel, by decide +kernel⟩
  · exact ⟨594, 840, by decide +kernel, by decide +kernel⟩
  · exact ⟨420, 594, by decide +kernel, by decide +kernel⟩
  · exact ⟨297, 420, by decide +kernel, by decide +kernel⟩
  · exact ⟨210, 297, by decide +kernel, by decide +kernel⟩

/-- The sizes of ISO 216. -/
def iso : List (List Char × ℚ × ℚ) :=
  [("A5".toList, 148, 210), ("A4".toList, 210, 297), ("A3".toList, 297, 420), ("A2".toList, 420, 594), ("A1".toList, 594, 841), ("A0".toList, 841, 1189)]

/-- Three of the formats are not those of ISO 216; the others are. -/
theorem iso_formats : ∀ e ∈ iso, paperFrom e.1 = some e.2 ↔ e.1 ∈ ["A4".toList, "A3".toList, "A2".toList] := by decide +kernel

end PyX.Output
