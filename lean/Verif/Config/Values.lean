import Mathlib.Data.List.Basic
import Mathlib.Data.List.Induction

/-!
# Values of the configuration (C171)

`pyx/config.py:304-364`: the internal `pyxrc`, the one of the user and the file named by `PYXRC` are read by one
`ConfigParser`; `get`, `getint`, `getfloat`, `getboolean` and `getlist` return its values or a default.

`configparser` is part of the Python library.  Modelled are the order of the files, the section `DEFAULT`, the
conversion to lower case of option names (as a parameter) and the errors.  The substitution of `%` in values and
`int()`/`float()` are parameters.
-/

set_option linter.unusedSectionVars false

namespace PyX.Config.Values

abbrev Str := List Char

/-- Exceptions. -/
inductive Err
  /-- `configparser.NoSectionError`, `NoOptionError` -/
  | missing
  /-- `configparser.InterpolationError`: a `%` in the value which is no substitution -/
  | interpolation
  /-- `ValueError` of `int()`, `float()`, or a value which is no boolean -/
  | value
deriving DecidableEq, Repr

/-- Is it a `configparser.Error`? `ValueError` is not. -/
def Err.isConfig : Err → Bool
  | .missing => true
  | .interpolation => true
  | .value => false

/-- A line `option = value` of a file below a section header. -/
structure Entry where
  section' : Str
  option : Str
  value : Str
deriving DecidableEq, Repr

/-- What the Python library does. -/
structure Lib where
  /-- `optionxform`, applied to the options of files and requests -/
  xform : Str → Str
  /-- the substitution of `%` in values -/
  interp : Str → Except Err Str
  /-- `int()` -/
  toInt : Str → Option Int
  /-- `str.lower` -/
  lower : Str → Str

/-- The entries of all files in the order of reading (`pyx/config.py:307-313`): internal, user, `PYXRC`. -/
def readAll (internal : List Entry) (user pyxrc : Option (List Entry)) : List Entry :=
  internal ++ user.getD [] ++ pyxrc.getD []

/-- The last entry for an option of a section. -/
def last (L : Lib) (es : List Entry) (sec opt : Str) : Option Str :=
  (es.reverse.find? fun e => e.section' = sec ∧ L.xform e.option = L.xform opt).map (·.value)

def defaultSection : Str := "DEFAULT".toList

/-- `ConfigParser.get` before the substitution: the section has to exist, its own value wins over the one in
`DEFAULT`. -/
def raw (L : Lib) (es : List Entry) (sec opt : Str) : Except Err Str :=
  if es.any fun e => e.section' = sec then
    match last L es sec opt with
    | some v => .ok v
    | none =>
      match last L es defaultSection opt with
      | some v => .ok v
      | none => .error .missing
  else .error .missing

/-- `ConfigParser.get`. -/
def cget (L : Lib) (es : List Entry) (sec opt : Str) : Except Err Str := do
  L.interp (← raw L es sec opt)

/-- The pattern of all functions with a default: without one the exception is passed on, otherwise exceptions of
`configparser` are replaced by the default (`pyx/config.py:315-349`). -/
def withDefault {α : Type} (default : Option α) (r : Except Err α) : Except Err α :=
  match default, r with
  | none, r => r
  | some _, .ok v => .ok v
  | some d, .error e => if e.isConfig then .ok d else .error e

/-- `get` (`pyx/config.py:315-322`). -/
def get (L : Lib) (es : List Entry) (sec opt : Str) (default : Option Str) : Except Err Str :=
  withDefault default (cget L es sec opt)

/-- `int(value)`. -/
def parseInt (L : Lib) (v : Str) : Except Err Int :=
  match L.toInt v with
  | some i => .ok i
  | none => .error .value

/-- `getint` (`pyx/config.py:324-331`); `getfloat` (333-340) is the same with `float()`. -/
def getint (L : Lib) (es : List Entry) (sec opt : Str) (default : Option Int) : Except Err Int :=
  withDefault default (do parseInt L (← cget L es sec opt))

/-- The texts `ConfigParser.getboolean` knows. -/
def boolStates : List (Str × Bool) :=
  [("1".toList, true), ("yes".toList, true), ("true".toList, true), ("on".toList, true),
   ("0".toList, false), ("no".toList, false), ("false".toList, false), ("off".toList, false)]

def parseBool (L : Lib) (v : Str) : Except Err Bool :=
  match boolStates.find? fun p => p.1 = L.lower v with
  | some p => .ok p.2
  | none => .error .value

/-- `getboolean` (`pyx/config.py:342-349`). -/
def getboolean (L : Lib) (es : List Entry) (sec opt : Str) (default : Option Bool) : Except Err Bool :=
  withDefault default (do parseBool L (← cget L es sec opt))

/-- The rest of `str.split()` behind the word `cur`. -/
def splitFrom : Str → Str → List Str
  | cur, [] => if cur = [] then [] else [cur]
  | cur, c :: cs =>
    if c.isWhitespace then
      if cur = [] then splitFrom [] cs else cur :: splitFrom [] cs
    else splitFrom (cur ++ [c]) cs

/-- `str.split()`. -/
def split (s : Str) : List Str := splitFrom [] s

/-- `s.replace(old, " ")`; `skip` characters belong to an occurrence already replaced. -/
def replaceFrom (old : Str) : ℕ → Str → Str
  | _, [] => []
  | skip + 1, _ :: cs => replaceFrom old skip cs
  | 0, c :: cs => if old.isPrefixOf (c :: cs) then ' ' :: replaceFrom old (old.length - 1) cs else c :: replaceFrom old 0 cs

/-- `s.replace(space, " ")` if `space` is not empty (`pyx/config.py:359-360`). -/
def unspace (space s : Str) : Str := if space = [] then s else replaceFrom space 0 s

/-- `getlist` (`pyx/config.py:351-361`). A default is returned as it is. -/
def getlist (L : Lib) (space : Str) (es : List Entry) (sec opt : Str) (default : Option (List Str)) : Except Err (List Str) :=
  match default, cget L es sec opt with
  | _, .ok v => .ok ((split v).map (unspace space))
  | none, .error e => .error e
  | some d, .error e => if e.isConfig then .ok d else .error e

/-! ## Which value is used -/

theorem last_append (L : Lib) (a b : List Entry) (sec opt : Str) :
    last L (a ++ b) sec opt = (last L b sec opt).or (last L a sec opt) := by
  unfold last
  rw [List.reverse_append, List.find?_append]
  cases List.find? (fun e => decide (e.section' = sec ∧ L.xform e.option = L.xform opt)) b.reverse <;> rfl

/-- `v` is what the file says last about the option. -/
def Says (L : Lib) (file : List Entry) (sec opt v : Str) : Prop :=
  ∃ pre post o, file = pre ++ ⟨sec, o, v⟩ :: post ∧ L.xform o = L.xform opt ∧
    ∀ e ∈ post, ¬ (e.section' = sec ∧ L.xform e.option = L.xform opt)

/-- The file says nothing about the option. -/
def Silent (L : Lib) (file : List Entry) (sec opt : Str) : Prop :=
  ∀ e ∈ file, ¬ (e.section' = sec ∧ L.xform e.option = L.xform opt)

theorem last_none (L : Lib) (es : List Entry) (sec opt : Str) : last L es sec opt = none ↔ Silent L es sec opt := by
  unfold last Silent
  simp [List.find?_eq_none]

theorem last_some (L : Lib) (es : List Entry) (sec opt v : Str) : last L es sec opt = some v ↔ Says L es sec opt v := by
  constructor
  · induction es using List.reverseRecOn with
    | nil => intro h; simp [last] at h
    | append_singleton l e ih =>
      intro h
      rw [last_append] at h
      by_cases he : e.section' = sec ∧ L.xform e.option = L.xform opt
      · have : last L [e] sec opt = some e.value := by simp [last, he.1, he.2]
        rw [this] at h
        simp at h
        obtain ⟨h1, h2⟩ := he
        exact ⟨l, [], e.option, by rw [← h, ← h1], h2, by simp⟩
      · have : last L [e] sec opt = none := (last_none L [e] sec opt).2 (by intro x hx; simp at hx; subst hx; exact he)
        rw [this] at h
        simp at h
        obtain ⟨pre, post, o, h1, h2, h3⟩ := ih h
        refine ⟨pre, post ++ [e], o, by rw [h1]; simp, h2, ?_⟩
        intro x hx
        rcases List.mem_append.1 hx with hx | hx
        · exact h3 x hx
        · simp at hx; subst hx; exact he
  · rintro ⟨pre, post, o, rfl, h2, h3⟩
    rw [show pre ++ ⟨sec, o, v⟩ :: post = pre ++ ([⟨sec, o, v⟩] ++ post) by simp, last_append, last_append]
    rw [(last_none L post sec opt).2 h3]
    have : last L [⟨sec, o, v⟩] sec opt = some v := by simp [last, h2]
    rw [this]; rfl

theorem silent_any {L : Lib} {es : List Entry} {sec opt v : Str} (h : last L es sec opt = some v) :
    (es.any fun e => e.section' = sec) = true := by
  obtain ⟨pre, post, o, rfl, -, -⟩ := (last_some L es sec opt v).1 h
  simp

theorem raw_says {L : Lib} {es : List Entry} {sec opt v : Str} (h : last L es sec opt = some v) : raw L es sec opt = .ok v := by
  unfold raw
  rw [if_pos (silent_any h), h]

/-- **C171, the order of the files.** What the file `PYXRC` says wins; otherwise what the user's file says; otherwise
the internal file. -/
theorem files_order (L : Lib) (internal user pyxrc : List Entry) (sec opt v : Str)
    (h : Says L pyxrc sec opt v ∨ (Silent L pyxrc sec opt ∧ (Says L user sec opt v ∨ (Silent L user sec opt ∧ Says L internal sec opt v)))) :
    raw L (readAll internal (some user) (some pyxrc)) sec opt = .ok v := by
  apply raw_says
  unfold readAll
  simp only [Option.getD_some]
  rw [last_append, last_append]
  rcases h with h | ⟨h0, h | ⟨h1, h⟩⟩
  · rw [(last_some L _ _ _ _).2 h]; rfl
  · rw [(last_none L _ _ _).2 h0, (last_some L _ _ _ _).2 h]; rfl
  · rw [(last_none L _ _ _).2 h0, (last_none L _ _ _).2 h1, (last_some L _ _ _ _).2 h]; rfl

/-- An option no file mentions, neither in the section nor in `DEFAULT`, is missing. -/
theorem raw_missing (L : Lib) (es : List Entry) (sec opt : Str) (h : Silent L es sec opt) (hd : Silent L es defaultSection opt) :
    raw L es sec opt = .error .missing := by
  unfold raw
  rw [(last_none L es sec opt).2 h, (last_none L es defaultSection opt).2 hd]
  simp

/-- A further file cannot hide an option it does not mention. -/
theorem further_file (L : Lib) (es file : List Entry) (sec opt v : Str) (h : Says L es sec opt v) (hs : Silent L file sec opt) :
    raw L (es ++ file) sec opt = .ok v := by
  apply raw_says
  rw [last_append, (last_none L _ _ _).2 hs, (last_some L _ _ _ _).2 h]; rfl

/-! ## Defaults -/

/-- **C171, `get`.** A value without a `%` is returned as written, with or without default; a missing one gives the
default, or an exception without it. -/
theorem get_partial (L : Lib) (hL : ∀ v : Str, '%' ∉ v → L.interp v = .ok v) (es : List Entry) (sec opt : Str) (default : Option Str) :
    (∀ v, raw L es sec opt = .ok v → '%' ∉ v → get L es sec opt default = .ok v) ∧
    (raw L es sec opt = .error .missing → get L es sec opt default = (match default with | some d => .ok d | none => .error .missing)) := by
  constructor
  · intro v h hv
    have : cget L es sec opt = .ok v := by unfold cget; rw [h]; exact hL v hv
    unfold get
    rw [this]
    cases default <;> rfl
  · intro h
    have : cget L es sec opt = .error .missing := by unfold cget; rw [h]; rfl
    unfold get
    rw [this]
    cases default <;> rfl

/-- A value whose `%` is no substitution is silently replaced by the default. -/
theorem percent_hidden (L : Lib) (es : List Entry) (sec opt v d : Str) (h : raw L es sec opt = .ok v)
    (hi : L.interp v = .error .interpolation) : get L es sec opt (some d) = .ok d := by
  have : cget L es sec opt = .error .interpolation := by unfold cget; rw [h]; exact hi
  unfold get
  rw [this]; rfl

/-- With a default `get` never raises an exception of `configparser`. -/
theorem default_safe {α : Type} (d : α) (r : Except Err α) (e : Err) (h : withDefault (some d) r = .error e) : e = .value := by
  cases r with
  | ok v => cases h
  | error x => cases x <;> cases h <;> rfl

/-- **C171, `getint`.** An integer is returned as such, a missing one is the default; but a text which is no integer
raises a `ValueError`, although there is a default. -/
theorem getint_spec (L : Lib) (es : List Entry) (sec opt : Str) (d : Int) :
    (∀ v i, cget L es sec opt = .ok v → L.toInt v = some i → getint L es sec opt (some d) = .ok i) ∧
    (raw L es sec opt = .error .missing → getint L es sec opt (some d) = .ok d) ∧
    (∀ v, cget L es sec opt = .ok v → L.toInt v = none → getint L es sec opt (some d) = .error .value) := by
  refine ⟨?_, ?_, ?_⟩
  · intro v i h hi
    unfold getint; rw [h]
    show withDefault (some d) (parseInt L v) = _
    unfold parseInt; rw [hi]; rfl
  · intro h
    unfold getint cget; rw [h]; rfl
  · intro v h hi
    unfold getint; rw [h]
    show withDefault (some d) (parseInt L v) = _
    unfold parseInt; rw [hi]; rfl

/-- `getboolean` knows four texts for each value, in any case. -/
theorem getboolean_spec (L : Lib) (es : List Entry) (sec opt : Str) (default : Option Bool) (v : Str) (h : cget L es sec opt = .ok v) :
    (L.lower v ∈ ["1".toList, "yes".toList, "true".toList, "on".toList] → getboolean L es sec opt default = .ok true) ∧
    (L.lower v ∈ ["0".toList, "no".toList, "false".toList, "off".toList] → getboolean L es sec opt default = .ok false) ∧
    (L.lower v ∉ ["1".toList, "yes".toList, "true".toList, "on".toList, "0".toList, "no".toList, "false".toList, "off".toList] →
      getboolean L es sec opt default = .error .value) := by
  have e : getboolean L es sec opt default = withDefault default (parseBool L v) := by unfold getboolean; rw [h]; rfl
  have w : ∀ x, parseBool L v = .ok x → withDefault default (parseBool L v) = .ok x := by
    intro x hx; rw [hx]; cases default <;> rfl
  rw [e]
  refine ⟨?_, ?_, ?_⟩
  · intro hm
    apply w
    unfold parseBool
    simp only [List.mem_cons, List.not_mem_nil, or_false] at hm
    rcases hm with hm | hm | hm | hm <;> rw [hm] <;> rfl
  · intro hm
    apply w
    unfold parseBool
    simp only [List.mem_cons, List.not_mem_nil, or_false] at hm
    rcases hm with hm | hm | hm | hm <;> rw [hm] <;> rfl
  · intro hm
    have : parseBool L v = .error .value := by
      unfold parseBool
      have : boolStates.find? (fun p => p.1 = L.lower v) = none := by
        rw [List.find?_eq_none]
        intro p hp hv
        apply hm
        have hv' : p.1 = L.lower v := by simpa using hv
        rw [← hv']
        unfold boolStates at hp
        simp only [List.mem_cons, List.not_mem_nil, or_false] at hp
        rcases hp with rfl | rfl | rfl | rfl | rfl | rfl | rfl | rfl <;> simp
      rw [this]
    rw [this]
    cases default <;> rfl

/-! ## Lists -/

/-- An item as it is written to the file: `space` for each blank. -/
def written (space : Str) (item : Str) : Str := item.flatMap fun c => if c = ' ' then space else [c]

/-- The text of a list: each item is followed by at least one blank, tab or end of line. -/
def text (space : Str) (l : List (Str × Str)) : Str := l.flatMap fun p => written space p.1 ++ p.2

theorem split_word (w : Str) (hw : ∀ c ∈ w, c.isWhitespace = false) (cur rest : Str) :
    splitFrom cur (w ++ rest) = splitFrom (cur ++ w) rest := by
  induction w generalizing cur with
  | nil => simp
  | cons c cs ih =>
    rw [List.cons_append, splitFrom]
    rw [if_neg (by simp [hw c])]
    rw [ih (fun x hx => hw x (List.mem_cons_of_mem _ hx))]
    simp

theorem split_blank (b : Str) (hb : ∀ c ∈ b, c.isWhitespace = true) (rest : Str) : splitFrom [] (b ++ rest) = splitFrom [] rest := by
  induction b with
  | nil => rfl
  | cons c cs ih =>
    rw [List.cons_append, splitFrom, if_pos (hb c List.mem_cons_self), if_pos rfl]
    exact ih (fun x hx => hb x (List.mem_cons_of_mem _ hx))

theorem split_sep (cur b : Str) (hcur : cur ≠ []) (hne : b ≠ []) (hb : ∀ c ∈ b, c.isWhitespace = true) (rest : Str) :
    splitFrom cur (b ++ rest) = cur :: splitFrom [] rest := by
  cases b with
  | nil => exact absurd rfl hne
  | cons c cs =>
    rw [List.cons_append, splitFrom, if_pos (hb c List.mem_cons_self), if_neg hcur]
    rw [split_blank cs (fun x hx => hb x (List.mem_cons_of_mem _ hx))]

theorem written_word {space item : Str} (hs : ∀ c ∈ space, c.isWhitespace = false)
    (hi : ∀ c ∈ item, c = ' ' ∨ c.isWhitespace = false) : ∀ c ∈ written space item, c.isWhitespace = false := by
  intro c hc
  unfold written at hc
  rw [List.mem_flatMap] at hc
  obtain ⟨x, hx, hc⟩ := hc
  by_cases h : x = ' '
  · rw [if_pos h] at hc; exact hs c hc
  · rw [if_neg h, List.mem_singleton] at hc
    subst hc
    exact (hi c hx).resolve_left h

theorem written_ne {space item : Str} (hs : space ≠ []) (hi : item ≠ []) : written space item ≠ [] := by
  cases item with
  | nil => exact absurd rfl hi
  | cons c cs =>
    unfold written
    rw [List.flatMap_cons]
    by_cases h : c = ' '
    · rw [if_pos h]; simp [hs]
    · rw [if_neg h]; simp

theorem replace_skip (old w rest : Str) : replaceFrom old w.length (w ++ rest) = replaceFrom old 0 rest := by
  induction w with
  | nil => rfl
  | cons c cs ih => exact ih

/-- The blanks come back when the item does not contain the first character of the mark. -/
theorem replace_written (s : Char) (ss item : Str) (hi : s ∉ item) :
    replaceFrom (s :: ss) 0 (written (s :: ss) item) = item := by
  induction item with
  | nil => rfl
  | cons c cs ih =>
    have hcs : s ∉ cs := fun h => hi (List.mem_cons_of_mem _ h)
    have hc : c ≠ s := fun h => hi (h ▸ List.mem_cons_self)
    unfold written
    rw [List.flatMap_cons]
    change replaceFrom (s :: ss) 0 (_ ++ written (s :: ss) cs) = _
    by_cases h : c = ' '
    · subst h
      rw [if_pos rfl, List.cons_append, replaceFrom]
      rw [if_pos (by
        rw [← List.cons_append, List.isPrefixOf_iff_prefix]; exact List.prefix_append _ _)]
      rw [List.length_cons, Nat.add_sub_cancel, replace_skip, ih hcs]
    · rw [if_neg h, List.singleton_append, replaceFrom]
      rw [if_neg (by
        intro hp
        rw [List.isPrefixOf_iff_prefix] at hp
        exact hc ((List.cons_prefix_cons.1 hp).1).symm)]
      rw [ih hcs]

theorem split_text (space : Str) (hs : space ≠ []) (hsw : ∀ c ∈ space, c.isWhitespace = false) (l : List (Str × Str))
    (hl : ∀ p ∈ l, p.1 ≠ [] ∧ (∀ c ∈ p.1, c = ' ' ∨ c.isWhitespace = false) ∧ p.2 ≠ [] ∧ ∀ c ∈ p.2, c.isWhitespace = true) :
    split (text space l) = l.map fun p => written space p.1 := by
  unfold split
  induction l with
  | nil => rfl
  | cons p ps ih =>
    obtain ⟨h1, h2, h3, h4⟩ := hl p List.mem_cons_self
    unfold text
    rw [List.flatMap_cons]
    change splitFrom [] ((written space p.1 ++ p.2) ++ text space ps) = _
    rw [List.append_assoc, split_word _ (written_word hsw h2), List.nil_append, split_sep _ _ (written_ne hs h1) h3 h4]
    rw [ih (fun q hq => hl q (List.mem_cons_of_mem _ hq))]
    rfl

/-- **C171, `getlist`.** Items with blanks, written with the mark for each blank and separated by blanks or ends of
lines, are read back in order, provided they do not contain the first character of the mark. -/
theorem getlist_partial (L : Lib) (s : Char) (ss : Str) (hsw : ∀ c ∈ s :: ss, c.isWhitespace = false) (es : List Entry) (sec opt : Str)
    (default : Option (List Str)) (l : List (Str × Str)) (b : Str) (hb : ∀ c ∈ b, c.isWhitespace = true)
    (hl : ∀ p ∈ l, p.1 ≠ [] ∧ (∀ c ∈ p.1, c = ' ' ∨ c.isWhitespace = false) ∧ p.2 ≠ [] ∧ ∀ c ∈ p.2, c.isWhitespace = true)
    (hm : ∀ p ∈ l, s ∉ p.1) (h : cget L es sec opt = .ok (b ++ text (s :: ss) l)) :
    getlist L (s :: ss) es sec opt default = .ok (l.map (·.1)) := by
  have e : (split (b ++ text (s :: ss) l)).map (unspace (s :: ss)) = l.map (·.1) := by
    have : split (b ++ text (s :: ss) l) = split (text (s :: ss) l) := split_blank b hb _
    rw [this, split_text (s :: ss) (by simp) hsw l hl, List.map_map]
    apply List.map_congr_left
    intro p hp
    show unspace (s :: ss) (written (s :: ss) p.1) = p.1
    unfold unspace
    rw [if_neg (by simp)]
    exact replace_written s ss p.1 (hm p hp)
  unfold getlist
  rw [h]
  cases default <;> (dsimp only; rw [e])

/-- A missing list is the default as it is: marks in the default are not replaced. -/
theorem getlist_default (L : Lib) (space : Str) (es : List Entry) (sec opt : Str) (d : List Str)
    (h : raw L es sec opt = .error .missing) : getlist L space es sec opt (some d) = .ok d := by
  have : cget L es sec opt = .error .missing := by unfold cget; rw [h]; rfl
  unfold getlist; rw [this]; rfl

/-! ## Concrete cases -/

/-- A library for the examples: ASCII lower case, a single `%` is an error. -/
def demo : Lib where
  xform := fun s => s.map Char.toLower
  interp := fun s => if '%' ∈ s then .error .interpolation else .ok s
  toInt := fun s => if s = "60".toList then some 60 else none
  lower := fun s => s.map Char.toLower

/-- The internal file, the file of the user and the one named by `PYXRC`. -/
def demoFiles : List Entry := readAll
  [⟨"text".toList, "tex".toList, "tex".toList⟩, ⟨"text".toList, "wait".toList, "60".toList⟩]
  (some [⟨"text".toList, "TeX".toList, "/my progSPACEx\n-v -q".toList⟩])
  (some [⟨"text".toList, "showwait".toList, "soon".toList⟩, ⟨"text".toList, "tmpdir".toList, "/tmp/100%".toList⟩])

/-- The user's file wins for `tex`, the internal one gives `wait`. -/
example : get demo demoFiles "text".toList "wait".toList none = .ok "60".toList ∧
    getint demo demoFiles "text".toList "wait".toList (some 5) = .ok 60 ∧
    getlist demo "SPACE".toList demoFiles "text".toList "tex".toList none =
      .ok ["/my".toList, "prog x".toList, "-v".toList, "-q".toList] := by
  refine ⟨?_, ?_, ?_⟩ <;> decide +kernel

/-- The hypotheses of `getlist_partial`: two items, one with a blank. -/
example : getlist demo "SPACE".toList [⟨"text".toList, "tex".toList, "my progSPACEx\n".toList⟩] "text".toList "tex".toList none =
    .ok ["my".toList, "prog x".toList] :=
  getlist_partial demo 'S' "PACE".toList (by decide) _ _ _ none [("my".toList, " ".toList), ("prog x".toList, "\n".toList)] []
    (by decide) (by decide) (by decide) (by decide +kernel)

/-- A text instead of a number raises a `ValueError` in spite of the default; a file name with `%` is replaced by the
default without a message. -/
theorem defaults_wrong : getint demo demoFiles "text".toList "showwait".toList (some 5) = .error .value ∧
    get demo demoFiles "text".toList "tmpdir".toList (some "/tmp".toList) = .ok "/tmp".toList := by
  constructor <;> decide +kernel

/-- An item which contains the mark itself is changed. -/
theorem mark_changed : getlist demo "SPACE".toList [⟨"text".toList, "tex".toList, "/home/SPACESHIP/tex".toList⟩]
    "text".toList "tex".toList none = .ok ["/home/ SHIP/tex".toList] := by decide +kernel

end PyX.Config.Values
