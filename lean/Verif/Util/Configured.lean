import Mathlib.Data.List.Basic
import Mathlib.Tactic.Tauto
import Mathlib.Tactic.NormNum

/-!
# Model of copies with changed parameters (`obj(**kwargs)`)

Axes, painters, parters, raters, texters, deformers and decorators can be called with keyword arguments to get a copy with some parameters changed
(`utils.merge_members_kwargs`, `pyx/utils.py:78-87`, and the methods `__call__`). Constructors take parts of their keyword arguments to change
objects stored in them: `painter_labelattrs=…` is `labelattrs=…` for the painter (`utils.kwsplit`, see C57).

* A keyword is the list of its parts between underscores; keyword arguments are partial functions.
* Values are of any type `V`; how a value reacts to being called is a parameter, such that objects within objects are covered to any depth.
* An exception is `none`.
* A class is a record of what its `__init__` and `__call__` do (`Desc`); the records of all classes are in `desc`.
-/

set_option linter.unusedSectionVars false

namespace PyX.Util.Cfg

open Classical

variable {V : Type}

/-- Keyword arguments. -/
abbrev Kw (V : Type) := List String → Option V

/-- `dict.update`: the arguments `b`, and those of `a` for all other keywords. -/
def over (b a : Kw V) : Kw V := fun k => (b k).or (a k)

/-- The arguments for the part `n` (`kwsplit`, `utils.py:61-73`). -/
def part (kw : Kw V) (n : String) : Kw V := fun k => if k = [] then none else kw (n :: k)

/-- The classes. -/
inductive Cls
  | decimal | texDefault | texRational
  | partLinear | autolinear | partLog | autolog
  | rater
  | regular | painterBar | painterSplit
  | linear | logarithmic | bar | nestedbar | split | sizedlinear | autosizedlinear
  | arrow | brace | cycloid | cornersmoothed | parallel
  deriving DecidableEq

/-- What `__init__` and `__call__` of a class do. -/
structure Desc (V : Type) where
  /-- named parameters of `__init__` -/
  own : List String
  /-- those without default -/
  required : List String := []
  /-- `__init__` has `**kwargs` -/
  hasKw : Bool := false
  /-- parameters of `__init__` of the base classes, reached by `**kwargs` -/
  rest : List String := []
  default : String → V
  /-- parameters for which parts of the keywords are split off (by this class or a base class) -/
  subs : List String := []
  /-- how a value is changed by the arguments split off for it -/
  sub : String → V → Kw V → Option V := fun _ _ _ => none
  /-- the attribute of the object, for values of the parameters; `none`: there is no such attribute -/
  attr : (String → V) → String → Option V
  /-- attributes used by `__call__` -/
  members : List String
  /-- `self.kwargs` is used by `__call__` -/
  useKwargs : Bool := false
  /-- arguments of `__call__` which stand for "not given" -/
  marker : String → V → Bool := fun _ _ => false
  /-- the class of the object returned by `__call__` -/
  result : Cls

/-- An object: values of all parameters, and `self.kwargs`. -/
structure Obj (V : Type) where
  cls : Cls
  val : String → V
  kwargs : Kw V

/-- The parameters a class knows. -/
def Desc.names (d : Desc V) : List String := if d.hasKw then d.own ++ d.rest else d.own

/-- Keywords which are accepted. -/
def Desc.Known (d : Desc V) : List String → Prop
  | [] => False
  | [n] => n ∈ d.names
  | n :: _ :: _ => d.hasKw = true ∧ n ∈ d.subs

/-- The value of a parameter. -/
noncomputable def Desc.bound (d : Desc V) (kw : Kw V) (n : String) : Option V :=
  if n ∈ d.subs ∧ ∃ k, part kw n k ≠ none then d.sub n ((kw [n]).getD (d.default n)) (part kw n) else some ((kw [n]).getD (d.default n))

/-- No exception is raised by `__init__`. -/
def Desc.Valid (d : Desc V) (kw : Kw V) : Prop :=
  (∀ k, kw k ≠ none → d.Known k) ∧ (∀ n ∈ d.required, kw [n] ≠ none) ∧ ∀ n ∈ d.names, d.bound kw n ≠ none

/-- The object made by `__init__`. -/
noncomputable def make (D : Cls → Desc V) (c : Cls) (kw : Kw V) : Obj V :=
  ⟨c, fun n => if n ∈ (D c).names then ((D c).bound kw n).getD ((D c).default n) else (D c).default n,
    fun k => if ∃ n ∈ (D c).own, k = [n] then none else kw k⟩

/-- `__init__` with keyword arguments. -/
noncomputable def construct (D : Cls → Desc V) (c : Cls) (kw : Kw V) : Option (Obj V) :=
  if (D c).Valid kw then some (make D c kw) else none

/-- The attributes named in `__call__` (`utils.py:81-83`). -/
noncomputable def memberKw (d : Desc V) (val : String → V) : Kw V
  | [n] => if n ∈ d.members then d.attr val n else none
  | _ => none

/-- The arguments of `__call__` which are given. -/
def given (d : Desc V) (kw : Kw V) : Kw V := fun k => (kw k).filter fun v => !d.marker (String.join k) v

/-- `self.kwargs`, if it is used. -/
def keptKw (d : Desc V) (o : Obj V) : Kw V := fun k => if d.useKwargs then o.kwargs k else none

/-- The arguments of `__init__` in `__call__`. -/
noncomputable def merged (d : Desc V) (o : Obj V) (kw : Kw V) : Kw V := over (given d kw) (over (keptKw d o) (memberKw d o.val))

/-- `__call__` (`utils.py:78-87`; the same with `if x is None: x = self.x` in decorators and deformers). -/
noncomputable def call (D : Cls → Desc V) (o : Obj V) (kw : Kw V) : Option (Obj V) :=
  if ∀ m ∈ (D o.cls).members, (D o.cls).attr o.val m ≠ none then construct D (D o.cls).result (merged (D o.cls) o kw) else none

/-! ## The classes -/

/-- What values do: `call` is their method `__call__`, `newDecimal` is `decimal(**kwargs)` and `newLinear` is
`linear(**kwargs)`; `default` are the defaults written in the code. -/
structure Env (V : Type) where
  call : V → Kw V → Option V
  newDecimal : Kw V → Option V
  newLinear : Kw V → Option V
  default : Cls → String → V
  none' : V

/-- Each parameter is an attribute. -/
def stored (names : List String) (val : String → V) (n : String) : Option V := if n ∈ names then some (val n) else none

/-- Parameters of `_title.__init__` and `_text.__init__` (`painter.py:76-93`). -/
def titleParams : List String := ["titledist", "titleattrs", "titledirection", "titlepos", "textengine"]

/-- Parameters of `_regularaxis.__init__` (`axis.py:66-69`). -/
def regularaxisParams : List String :=
  ["min", "max", "reverse", "divisor", "title", "painter", "texter", "linkpainter", "maxworse", "manualticks", "fallbackrange"]

/-- Parameters of `linear.__init__` including its base class (`axis.py:248-262`); the deprecated `density` is left out. -/
def linearParams : List String := ["parter", "rater"] ++ regularaxisParams

variable (E : Env V)

/-- `x = x(**split_kwargs["x"])` (`axis.py:75-77`, `250-260`). -/
def subCall : String → V → Kw V → Option V := fun _ v kw => E.call v kw

def decimalParams : List String :=
  ["prefix", "infix", "suffix", "equalprecision", "decimalsep", "thousandsep", "thousandthpartsep", "plus", "minus", "period", "labelattrs"]

/-- `texter.decimal` (`texter.py:47-81`). -/
def decimalD : Desc V :=
  { own := decimalParams, default := E.default .decimal, attr := stored decimalParams, members := decimalParams, result := .decimal }

def texDefaultParams : List String :=
  ["multiplicationtex", "multiplicationunicode", "base", "skipmantissaunity", "minusunity", "minexponent", "minnegexponent", "uniformexponent",
   "labelattrs", "mantissatexter", "basetexter", "exponenttexter"]

/-- The arguments for the texters within `default` (`texter.py:182-185`): a new texter for the first two, no effect for the third. -/
def texSub : String → V → Kw V → Option V := fun n v kw => if n = "exponenttexter" then some v else E.newDecimal kw

/-- `texter.default` (`texter.py:154-207`); without `minnegexponent` the attribute is set to `minexponent` (`texter.py:193`). -/
noncomputable def texDefaultD : Desc V :=
  { own := texDefaultParams, hasKw := true, default := E.default .texDefault, subs := ["mantissatexter", "basetexter", "exponenttexter"], sub := texSub E,
    attr := fun val n => if n = "minnegexponent" ∧ val n = E.none' then some (val "minexponent") else stored texDefaultParams val n,
    members := texDefaultParams, useKwargs := true, result := .texDefault }

def texRationalParams : List String :=
  ["prefix", "infix", "suffix", "numprefix", "numinfix", "numsuffix", "denomprefix", "denominfix", "denomsuffix", "plus", "minus", "minuspos",
   "over", "equaldenom", "skip1", "skipnum0", "skipnum1", "skipdenom1", "labelattrs"]

/-- `texter.rational` (`texter.py:279-348`), with the name `skinum1` in `__call__`. -/
def texRationalD : Desc V :=
  { own := texRationalParams, default := E.default .texRational, attr := stored texRationalParams,
    members := ["prefix", "infix", "suffix", "numprefix", "numinfix", "numsuffix", "denomprefix", "denominfix", "denomsuffix", "plus", "minus", "minuspos",
      "over", "equaldenom", "skip1", "skipnum0", "skinum1", "skipdenom1", "labelattrs"],
    result := .texRational }

/-- `parter.linear` (`parter.py:68-83`): the lists are stored as `ticklist` and `labellist`. -/
def partLinearD : Desc V :=
  { own := ["tickdists", "labeldists", "extendtick", "extendlabel", "epsilon"], default := E.default .partLinear,
    attr := stored ["extendtick", "extendlabel", "epsilon"], members := ["tickdists", "labeldists", "extendtick", "extendlabel", "epsilon"], result := .partLinear }

/-- `parter.autolinear` (`parter.py:142-149`). -/
def autolinearD : Desc V :=
  { own := ["variants", "extendtick", "epsilon"], default := E.default .autolinear, attr := stored ["variants", "extendtick", "epsilon"],
    members := ["variants", "extendtick", "epsilon"], result := .autolinear }

/-- `parter.logarithmic` (`parter.py:213-229`): the lists are stored as `ticklist` and `labellist`. -/
def partLogD : Desc V :=
  { own := ["tickpreexps", "labelpreexps", "extendtick", "extendlabel", "epsilon"], default := E.default .partLog,
    attr := stored ["extendtick", "extendlabel", "epsilon"], members := ["tickpreexps", "labelpreexps", "extendtick", "extendlabel", "epsilon"], result := .partLog }

def autologParams : List String := ["variants", "extendtick", "extendlabel", "autoexponent", "epsilon"]

/-- `parter.autologarithmic` (`parter.py:303-312`). -/
def autologD : Desc V :=
  { own := autologParams, default := E.default .autolog, attr := stored autologParams, members := autologParams, result := .autolog }

def raterParams : List String := ["ticks", "labels", "range", "distance", "density"]

/-- `rater.rater` (`rater.py:136-161`); `linear` and `logarithmic` differ from it in the defaults only. -/
def raterD : Desc V := { own := raterParams, default := E.default .rater, attr := stored raterParams, members := raterParams, result := .rater }

def regularParams : List String :=
  ["innerticklength", "outerticklength", "tickattrs", "gridattrs", "basepathattrs", "labeldist", "labelattrs", "labeldirection", "labelhequalize", "labelvequalize"]

/-- `painter.regular` (`painter.py:151-179`); `linked` differs from it in the defaults only. -/
def regularD : Desc V :=
  { own := regularParams, hasKw := true, rest := titleParams, default := E.default .regular, attr := stored regularParams, members := regularParams, useKwargs := true,
    result := .regular }

def painterBarParams : List String :=
  ["innerticklength", "outerticklength", "tickattrs", "basepathattrs", "namedist", "nameattrs", "namedirection", "namepos", "namehequalize", "namevequalize"]

/-- `painter.bar` (`painter.py:285-314`); `linkedbar` differs from it in the defaults only. -/
def painterBarD : Desc V :=
  { own := painterBarParams, hasKw := true, rest := titleParams, default := E.default .painterBar, attr := stored painterBarParams, members := painterBarParams,
    useKwargs := true, result := .painterBar }

def painterSplitParams : List String := ["breaklinesdist", "breaklineslength", "breaklinesangle", "breaklinesattrs"]

/-- `painter.split` (`painter.py:396-412`); `linkedsplit` differs from it in the defaults only. -/
def painterSplitD : Desc V :=
  { own := painterSplitParams, hasKw := true, rest := titleParams, default := E.default .painterSplit, attr := stored painterSplitParams, members := painterSplitParams,
    useKwargs := true, result := .painterSplit }

/-- `axis.linear` (`axis.py:248-265`). -/
def linearD : Desc V :=
  { own := ["parter", "rater"], hasKw := true, rest := regularaxisParams, default := E.default .linear, subs := ["parter", "rater", "painter", "texter", "linkpainter"],
    sub := subCall E, attr := stored ["parter", "rater"], members := ["parter", "rater"], useKwargs := true, result := .linear }

/-- `axis.logarithmic` (`axis.py:282-306`): `__call__` makes a linear axis. -/
def logarithmicD : Desc V :=
  { own := ["parter", "rater", "linearparter"], hasKw := true, rest := regularaxisParams, default := E.default .logarithmic,
    subs := ["parter", "rater", "linearparter", "painter", "texter", "linkpainter"], sub := subCall E, attr := stored ["parter", "rater", "linearparter"],
    members := ["parter", "rater", "linearparter"], useKwargs := true, result := .linear }

def barParams : List String :=
  ["subaxes", "defaultsubaxis", "dist", "firstdist", "lastdist", "title", "reverse", "epsilon", "painter", "linkpainter"]

/-- The arguments for objects within a bar axis (`axis.py:372-374`): `painter.bar` and `painter.linkedbar` are looked up in the parameter
`painter`, an object of class `painter.bar`, instead of the module. -/
def barSub : String → V → Kw V → Option V := fun n _ kw =>
  if n = "defaultsubaxis" then E.newLinear kw else none

/-- `axis.bar` (`axis.py:367-395`). -/
def barD : Desc V :=
  { own := barParams, hasKw := true, default := E.default .bar, subs := ["defaultsubaxis", "painter", "linkpainter"], sub := barSub E, attr := stored barParams,
    members := ["defaultsubaxis", "painter", "linkpainter"], useKwargs := true, result := .bar }

/-- `axis.nestedbar` (`axis.py:507-510`), with `__call__` of `bar`. -/
def nestedbarD : Desc V := { barD E with default := E.default .nestedbar }

/-- `axis.split` (`axis.py:513-521`), with `__call__` of `bar`. -/
def splitD : Desc V := { barD E with default := E.default .split }

/-- `axis.sizedlinear` (`axis.py:524-531`). -/
def sizedlinearD : Desc V :=
  { own := ["size"], hasKw := true, rest := linearParams, default := E.default .sizedlinear, subs := ["parter", "rater", "painter", "texter", "linkpainter"],
    sub := subCall E, attr := stored ["size"], members := ["size"], useKwargs := true, result := .sizedlinear }

/-- `axis.autosizedlinear` (`axis.py:542-552`): `parter.autolinear` is looked up in the parameter `parter`. -/
def autosizedlinearD : Desc V :=
  { own := ["parter"], hasKw := true, rest := "rater" :: regularaxisParams, default := E.default .autosizedlinear,
    subs := ["parter", "rater", "painter", "texter", "linkpainter"], sub := fun n v kw => if n = "parter" then none else E.call v kw, attr := stored ["parter"],
    members := ["parter"], useKwargs := true, result := .autosizedlinear }

/-- `None` as argument of `__call__` means that the argument is not given. -/
noncomputable def isNone : V → Bool := fun v => decide (v = E.none')

def arrowParams : List String := ["attrs", "pos", "reversed", "size", "angle", "constriction"]

/-- `deco.arrow` (`deco.py:493-532`). Merging of `attrs` with the defaults is left out. -/
noncomputable def arrowD : Desc V :=
  { own := arrowParams, default := E.default .arrow, attr := stored arrowParams, members := arrowParams, marker := fun n v => decide (n ≠ "constriction") && isNone E v,
    result := .arrow }

def braceParams : List String :=
  ["reverse", "stretch", "dist", "fillattrs", "totalheight", "barthickness", "innerstrokesthickness", "outerstrokesthickness", "innerstrokesrelheight",
   "outerstrokesrelheight", "innerstrokesangle", "outerstrokesangle", "slantstrokesangle", "innerstrokessmoothness", "outerstrokessmoothness", "middlerelpos"]

/-- `deco.brace` (`deco.py:956-988`). -/
def braceD : Desc V := { own := braceParams, default := E.default .brace, attr := stored braceParams, members := braceParams, result := .brace }

def cycloidParams : List String := ["radius", "halfloops", "skipfirst", "skiplast", "curvesperhloop", "sign", "turnangle"]

/-- `deformer.cycloid` (`deformer.py:380-408`). -/
noncomputable def cycloidD : Desc V :=
  { own := cycloidParams, default := E.default .cycloid, attr := stored cycloidParams, members := cycloidParams, marker := fun _ => isNone E, result := .cycloid }

def cornersmoothedParams : List String := ["radius", "softness", "obeycurv", "relskipthres"]

/-- `deformer.cornersmoothed` (`deformer.py:530-545`). -/
noncomputable def cornersmoothedD : Desc V :=
  { own := cornersmoothedParams, required := ["radius"], default := E.default .cornersmoothed, attr := stored cornersmoothedParams, members := cornersmoothedParams,
    marker := fun _ => isNone E, result := .cornersmoothed }

def parallelParams : List String :=
  ["distance", "relerr", "sharpoutercorners", "dointersection", "checkdistanceparams", "lookforcurvatures", "searchstep", "debug"]

/-- `deformer.parallel` (`deformer.py:844-882`). -/
noncomputable def parallelD : Desc V :=
  { own := parallelParams, required := ["distance"], default := E.default .parallel, attr := stored parallelParams, members := parallelParams, marker := fun _ => isNone E,
    result := .parallel }

/-- All classes. -/
noncomputable def desc : Cls → Desc V
  | .decimal => decimalD E | .texDefault => texDefaultD E | .texRational => texRationalD E
  | .partLinear => partLinearD E | .autolinear => autolinearD E | .partLog => partLogD E | .autolog => autologD E
  | .rater => raterD E
  | .regular => regularD E | .painterBar => painterBarD E | .painterSplit => painterSplitD E
  | .linear => linearD E | .logarithmic => logarithmicD E | .bar => barD E | .nestedbar => nestedbarD E | .split => splitD E
  | .sizedlinear => sizedlinearD E | .autosizedlinear => autosizedlinearD E
  | .arrow => arrowD E | .brace => braceD E | .cycloid => cycloidD E | .cornersmoothed => cornersmoothedD E | .parallel => parallelD E

/-! ## The law -/

/-- Values within the object: a change on top of an earlier one is the same as both together. -/
def Lawful (s : V → Kw V → Option V) : Prop := ∀ v a b w, s v a = some w → s w (over b a) = s v (over b a)

/-- The conditions on a class: all its own parameters are used by `__call__`, its other arguments are kept in `kwargs`, and the result is of the
same class. -/
structure Good (D : Cls → Desc V) (c : Cls) : Prop where
  result : (D c).result = c
  members : ∀ n, n ∈ (D c).members ↔ n ∈ (D c).own
  kwargs : (D c).hasKw = true → (D c).useKwargs = true
  sub : ∀ n ∈ (D c).subs, Lawful ((D c).sub n)

theorem part_over (b a : Kw V) (n : String) : part (over b a) n = over (part b n) (part a n) := by
  funext k
  unfold part over
  by_cases h : k = [] <;> simp [h]

theorem construct_iff (D : Cls → Desc V) (c : Cls) (kw : Kw V) (o : Obj V) : construct D c kw = some o ↔ (D c).Valid kw ∧ o = make D c kw := by
  unfold construct
  by_cases h : (D c).Valid kw
  · rw [if_pos h, Option.some.injEq]
    exact ⟨fun e => ⟨h, e.symm⟩, fun e => e.2.symm⟩
  · rw [if_neg h]
    exact ⟨fun e => absurd e (by simp), fun e => absurd e.1 h⟩

theorem make_val (D : Cls → Desc V) (c : Cls) (kw : Kw V) (n : String) (hn : n ∈ (D c).names) :
    (make D c kw).val n = ((D c).bound kw n).getD ((D c).default n) := if_pos hn

theorem make_kwargs (D : Cls → Desc V) (c : Cls) (kw : Kw V) (n : String) (hn : n ∈ (D c).own) : (make D c kw).kwargs [n] = none := if_pos ⟨n, hn, rfl⟩

theorem call_some (D : Cls → Desc V) (o : Obj V) (kw : Kw V) (o' : Obj V) (h : call D o kw = some o') : o' = make D (D o.cls).result (merged (D o.cls) o kw) := by
  unfold call at h
  by_cases hm : ∀ m ∈ (D o.cls).members, (D o.cls).attr o.val m ≠ none
  · rw [if_pos hm] at h
    exact ((construct_iff _ _ _ _).1 h).2
  · rw [if_neg hm] at h
    cases h

/-- **C115.** An object changed by calling it is the object which is made by giving all arguments at once, the later ones taking precedence over the
earlier ones. -/
theorem call_spec (D : Cls → Desc V) (c : Cls) (hg : Good D c) (kw : Kw V) (o : Obj V) (h : construct D c kw = some o)
    (hat : ∀ n ∈ (D c).own, (D c).attr o.val n = some (o.val n)) (kw' : Kw V) :
    call D o kw' = construct D c (over (given (D c) kw') kw) := by
  obtain ⟨⟨hk, hreq, hb⟩, rfl⟩ := (construct_iff D c kw o).1 h
  generalize hG : given (D c) kw' = G
  have own_names : ∀ n ∈ (D c).own, n ∈ (D c).names := by
    intro n hn
    unfold Desc.names
    split_ifs
    · exact List.mem_append_left _ hn
    · exact hn
  -- the value of an own parameter
  have hval : ∀ n ∈ (D c).own, ∃ w, (D c).bound kw n = some w ∧ (if n ∈ (D c).names then ((D c).bound kw n).getD ((D c).default n) else (D c).default n) = w := by
    intro n hn
    obtain ⟨w, hw⟩ := Option.ne_none_iff_exists'.1 (hb n (own_names n hn))
    exact ⟨w, hw, by rw [if_pos (own_names n hn), hw]; rfl⟩
  -- the arguments
  set val : String → V := fun n => if n ∈ (D c).names then ((D c).bound kw n).getD ((D c).default n) else (D c).default n with hvaldef
  have hat' : ∀ n ∈ (D c).own, (D c).attr val n = some (val n) := hat
  set kws : Kw V := fun k => if ∃ n ∈ (D c).own, k = [n] then none else kw k with hkws
  have hkeep : keptKw (D c) (make D c kw) = fun k => if (D c).useKwargs then kws k else none := rfl
  set A : Kw V := over (keptKw (D c) (make D c kw)) (memberKw (D c) val) with hA
  have hkwlong : (D c).hasKw = false → ∀ k, kw k ≠ none → ∃ n ∈ (D c).own, k = [n] := by
    intro hf k hne
    have := hk k hne
    match k, this with
    | [n], this =>
      unfold Desc.Known Desc.names at this
      rw [hf] at this
      exact ⟨n, by simpa using this, rfl⟩
    | n :: _ :: _, this =>
      have h1 : (D c).hasKw = true := this.1
      rw [hf] at h1
      cases h1
  have hA1 : ∀ n ∈ (D c).own, A [n] = some (val n) := by
    intro n hn
    have e1 : kws [n] = none := by rw [hkws]; simp only; rw [if_pos ⟨n, hn, rfl⟩]
    have e2 : memberKw (D c) val [n] = some (val n) := by
      simp only [memberKw]
      rw [if_pos ((hg.members n).2 hn), hat' n hn]
    rw [hA, over, e2, hkeep]
    simp only [e1]
    split_ifs <;> rfl
  have hA2 : ∀ k, (¬ ∃ n ∈ (D c).own, k = [n]) → A k = kw k := by
    intro k hno
    have e1 : kws k = kw k := by rw [hkws]; simp only; rw [if_neg hno]
    have e2 : memberKw (D c) val k = none := by
      match k with
      | [] => rfl
      | [n] =>
        simp only [memberKw]
        rw [if_neg]
        intro hm
        exact hno ⟨n, (hg.members n).1 hm, rfl⟩
      | _ :: _ :: _ => rfl
    rw [hA, over, e2, hkeep]
    simp only [e1]
    cases hkw : (D c).hasKw with
    | true => rw [if_pos (hg.kwargs hkw), Option.or_none]
    | false =>
      have : kw k = none := by
        by_contra hne
        exact hno (hkwlong hkw k hne)
      rw [this]
      split_ifs <;> rfl
  have hpart : ∀ n, part A n = part kw n := by
    intro n
    funext k
    unfold part
    split_ifs with hkn
    · rfl
    · refine hA2 _ ?_
      rintro ⟨m, -, hm⟩
      exact hkn (List.cons.inj hm).2
  -- known arguments
  have hknown : (∀ k, over G A k ≠ none → (D c).Known k) ↔ ∀ k, over G kw k ≠ none → (D c).Known k := by
    constructor
    · intro hh k hne
      by_cases hown : ∃ n ∈ (D c).own, k = [n]
      · obtain ⟨n, hn, rfl⟩ := hown
        exact own_names n hn
      · refine hh k ?_
        unfold over at hne ⊢
        rwa [hA2 k hown]
    · intro hh k hne
      by_cases hown : ∃ n ∈ (D c).own, k = [n]
      · obtain ⟨n, hn, rfl⟩ := hown
        exact own_names n hn
      · refine hh k ?_
        unfold over at hne ⊢
        rwa [hA2 k hown] at hne
  -- values
  have hbound : ∀ n ∈ (D c).names, (D c).bound (over G A) n = (D c).bound (over G kw) n := by
    intro n hn
    unfold Desc.bound
    rw [part_over G A, part_over G kw, hpart]
    by_cases hown : n ∈ (D c).own
    · obtain ⟨w, hw, hw'⟩ := hval n hown
      have hw'' : val n = w := hw'
      have e1 : over G A [n] = some ((G [n]).getD w) := by
        unfold over
        rw [hA1 n hown, hw'']
        cases G [n] <;> rfl
      rw [e1]
      unfold Desc.bound at hw
      have e2 : (over G kw [n]).getD ((D c).default n) = (G [n]).getD ((kw [n]).getD ((D c).default n)) := by
        unfold over
        cases G [n] <;> cases kw [n] <;> rfl
      rw [e2, Option.getD_some]
      by_cases hsub : n ∈ (D c).subs ∧ ∃ k, part kw n k ≠ none
      · rw [if_pos hsub] at hw
        have hnew : n ∈ (D c).subs ∧ ∃ k, over (part G n) (part kw n) k ≠ none := by
          refine ⟨hsub.1, ?_⟩
          obtain ⟨k, hk⟩ := hsub.2
          refine ⟨k, ?_⟩
          unfold over
          cases part G n k with
          | none => exact hk
          | some _ => simp
        rw [if_pos hnew, if_pos hnew]
        cases hGn : G [n] with
        | some g => rfl
        | none => exact hg.sub n hsub.1 _ _ _ _ hw
      · rw [if_neg hsub] at hw
        have hw2 : (kw [n]).getD ((D c).default n) = w := Option.some.inj hw
        rw [hw2]
    · have e : over G A [n] = over G kw [n] := by
        unfold over
        rw [hA2 [n] (by rintro ⟨m, hm, h⟩; cases h; exact hown hm)]
      rw [e]
  have hattr : ∀ m ∈ (D c).members, (D c).attr val m ≠ none := by
    intro m hm
    rw [hat' m ((hg.members m).1 hm)]
    simp
  have hcall : call D (make D c kw) kw' = construct D c (over G A) := by
    unfold call
    rw [if_pos (show ∀ m ∈ (D (make D c kw).cls).members, (D (make D c kw).cls).attr (make D c kw).val m ≠ none from hattr)]
    show construct D (D c).result _ = _
    rw [hg.result, hA, ← hG]
    rfl
  rw [hcall]
  unfold construct
  have hreqA : ∀ n ∈ (D c).required, over G A [n] ≠ none ↔ True := by
    intro n hn
    simp only [iff_true]
    unfold over
    by_cases hown : n ∈ (D c).own
    · rw [hA1 n hown]; cases G [n] <;> simp
    · rw [hA2 [n] (by rintro ⟨m, hm, h⟩; cases h; exact hown hm)]
      have := hreq n hn
      cases G [n] with
      | none => exact this
      | some _ => simp
  have hreqK : ∀ n ∈ (D c).required, over G kw [n] ≠ none := by
    intro n hn
    unfold over
    have := hreq n hn
    cases G [n] with
    | none => exact this
    | some _ => simp
  have hcond : (D c).Valid (over G A) ↔ (D c).Valid (over G kw) := by
    unfold Desc.Valid
    rw [hknown]
    refine and_congr_right fun _ => and_congr ⟨fun _ => hreqK, fun _ n hn => (hreqA n hn).2 trivial⟩ ?_
    exact forall_congr' fun n => forall_congr' fun hn => by rw [hbound n hn]
  by_cases hc : (D c).Valid (over G kw)
  · rw [if_pos (hcond.2 hc), if_pos hc]
    unfold make
    congr 2
    · funext n
      by_cases hn : n ∈ (D c).names
      · rw [if_pos hn, if_pos hn, hbound n hn]
      · rw [if_neg hn, if_neg hn]
    · funext k
      by_cases hown : ∃ n ∈ (D c).own, k = [n]
      · rw [if_pos hown, if_pos hown]
      · rw [if_neg hown, if_neg hown]
        unfold over
        rw [hA2 k hown]
  · rw [if_neg (fun hh => hc (hcond.1 hh)), if_neg hc]

/-- Membership in the lists of parameters. -/
local macro "mem" : tactic => `(tactic| simp [desc, Desc.names, decimalD, texDefaultD, texRationalD, partLinearD, partLogD, linearD, logarithmicD, barD, nestedbarD, splitD,
  autosizedlinearD, decimalParams, texDefaultParams, texRationalParams, regularaxisParams, linearParams, barParams])

/-- The classes which satisfy the law. -/
def goodClasses : List Cls :=
  [.decimal, .autolinear, .autolog, .rater, .regular, .painterBar, .painterSplit, .linear, .sizedlinear, .autosizedlinear, .arrow, .brace, .cycloid,
   .cornersmoothed, .parallel]

theorem texSub_lawful (n : String) : Lawful (texSub E n) := by
  intro v a b w h
  unfold texSub at h ⊢
  split_ifs at h ⊢ with hn
  · exact h.symm
  · rfl

theorem good_desc (hE : Lawful E.call) (c : Cls) (hc : c ∈ goodClasses) :
    Good (desc E) c ∧ ∀ val, ∀ n ∈ (desc E c).own, (desc E c).attr val n = some (val n) := by
  have hs : ∀ (l : List String) (val : String → V), ∀ n ∈ l, stored l val n = some (val n) := fun l val n hn => if_pos hn
  simp only [goodClasses, List.mem_cons, List.not_mem_nil, or_false] at hc
  rcases hc with rfl | rfl | rfl | rfl | rfl | rfl | rfl | rfl | rfl | rfl | rfl | rfl | rfl | rfl | rfl
  case inr.inr.inr.inr.inr.inr.inr.inr.inr.inl =>
    refine ⟨⟨rfl, fun _ => Iff.rfl, fun _ => rfl, fun n _ => ?_⟩, hs _⟩
    intro v a b w h
    simp only [desc, autosizedlinearD] at h ⊢
    split_ifs at h ⊢
    exact hE v a b w h
  all_goals
    refine ⟨⟨rfl, fun _ => Iff.rfl, ?_, ?_⟩, hs _⟩
    · first
        | exact fun _ => rfl
        | exact fun h => by cases h
    · first
        | exact fun n _ => hE
        | exact fun n hn => by cases hn

/-- **C115 for the classes of PyX.** `obj(**kw')` is the object made by all arguments at once. -/
theorem copy (hE : Lawful E.call) (c : Cls) (hc : c ∈ goodClasses) (kw : Kw V) (o : Obj V) (h : construct (desc E) c kw = some o) (kw' : Kw V) :
    call (desc E) o kw' = construct (desc E) c (over (given (desc E c) kw') kw) :=
  call_spec (desc E) c (good_desc E hE c hc).1 kw o h (fun n hn => (good_desc E hE c hc).2 o.val n hn) kw'

/-- The texter `default` satisfies the law, too, if `minnegexponent` was given. -/
theorem copy_texDefault_partial (kw : Kw V) (o : Obj V) (h : construct (desc E) .texDefault kw = some o) (hneg : o.val "minnegexponent" ≠ E.none') (kw' : Kw V) :
    call (desc E) o kw' = construct (desc E) .texDefault (over kw' kw) := by
  have e : given (desc E .texDefault) kw' = kw' := by
    funext k
    unfold given
    cases kw' k <;> rfl
  rw [call_spec (desc E) .texDefault ⟨rfl, fun _ => Iff.rfl, fun _ => rfl, fun n _ => texSub_lawful E n⟩ kw o h ?_ kw', e]
  intro n hn
  show (if n = "minnegexponent" ∧ o.val n = E.none' then _ else stored texDefaultParams o.val n) = _
  rw [if_neg (by rintro ⟨rfl, h⟩; exact hneg h)]
  exact if_pos hn

/-- Parameters which are not mentioned keep their values. -/
theorem copy_keeps (hE : Lawful E.call) (c : Cls) (hc : c ∈ goodClasses) (kw : Kw V) (o : Obj V) (h : construct (desc E) c kw = some o) (kw' : Kw V) (o' : Obj V)
    (h' : call (desc E) o kw' = some o') (n : String) (hn : n ∈ (desc E c).names) (hno : ∀ k, kw' (n :: k) = none) : o'.val n = o.val n ∧ o'.cls = o.cls := by
  rw [copy E hE c hc kw o h kw'] at h'
  have key : ∀ (kw : Kw V) (o : Obj V), construct (desc E) c kw = some o → o.val n = ((desc E c).bound kw n).getD ((desc E c).default n) ∧ o.cls = c := by
    intro kw o h
    rw [((construct_iff _ _ _ _).1 h).2]
    exact ⟨if_pos hn, rfl⟩
  obtain ⟨e1, c1⟩ := key _ _ h
  obtain ⟨e2, c2⟩ := key _ _ h'
  refine ⟨?_, c2.trans c1.symm⟩
  rw [e1, e2]
  have hg : ∀ k, given (desc E c) kw' (n :: k) = none := by
    intro k
    unfold given
    rw [hno k]
    rfl
  have h1 : part (over (given (desc E c) kw') kw) n = part kw n := by
    rw [part_over]
    funext k
    unfold over part
    split_ifs
    · rfl
    · rw [hg k]; rfl
  have h2 : over (given (desc E c) kw') kw [n] = kw [n] := by
    unfold over
    rw [hg []]; rfl
  unfold Desc.bound
  rw [h1, h2]

/-- Parameters which are given have the value given (if none of their parts are changed as well). -/
theorem copy_changes (hE : Lawful E.call) (c : Cls) (hc : c ∈ goodClasses) (kw : Kw V) (o : Obj V) (h : construct (desc E) c kw = some o) (kw' : Kw V) (o' : Obj V)
    (h' : call (desc E) o kw' = some o') (n : String) (hn : n ∈ (desc E c).names) (v : V) (hv : given (desc E c) kw' [n] = some v)
    (hno : n ∈ (desc E c).subs → ∀ k, k ≠ [] → kw (n :: k) = none ∧ kw' (n :: k) = none) : o'.val n = v := by
  rw [copy E hE c hc kw o h kw'] at h'
  rw [((construct_iff _ _ _ _).1 h').2]
  show (if n ∈ (desc E c).names then _ else _) = v
  rw [if_pos hn]
  have h2 : over (given (desc E c) kw') kw [n] = some v := by
    unfold over
    rw [hv]; rfl
  unfold Desc.bound
  rw [h2, if_neg]
  · rfl
  · rintro ⟨hs, k, hk⟩
    apply hk
    unfold part
    split_ifs with hk0
    · rfl
    · unfold over given
      rw [(hno hs k hk0).1, (hno hs k hk0).2]; rfl

/-- The law for objects within objects follows from that for the objects: calls of painters, texters, parters and raters are lawful. -/
theorem call_lawful (hE : Lawful E.call) (c : Cls) (hc : c ∈ goodClasses) (hm : ∀ n v, (desc E c).marker n v = false) (kw a b : Kw V) (o o' : Obj V)
    (h : construct (desc E) c kw = some o) (h' : call (desc E) o a = some o') : call (desc E) o' (over b a) = call (desc E) o (over b a) := by
  have e : ∀ k : Kw V, given (desc E c) k = k := by
    intro k
    funext x
    unfold given
    cases k x with
    | none => rfl
    | some v => simp [hm]
  rw [copy E hE c hc kw o h a] at h'
  rw [copy E hE c hc _ o' h' (over b a), copy E hE c hc kw o h (over b a), e, e]
  congr 1
  funext k
  unfold over
  cases b k <;> cases a k <;> cases kw k <;> rfl

/-! ## Failures -/

theorem call_none (D : Cls → Desc V) (o : Obj V) (kw : Kw V) (m : String) (hm : m ∈ (D o.cls).members) (ha : (D o.cls).attr o.val m = none) : call D o kw = none := by
  unfold call
  exact if_neg fun h => h m hm ha

/-- **Finding** (`texter.py:345-348`, `parter.py:82-83`, `228-229`): the texter `rational` and the parters `linear` and `logarithmic` cannot be changed, whatever the arguments
are; `AttributeError` is raised for attributes which do not exist. -/
theorem copy_raises (o : Obj V) (kw : Kw V) (hc : o.cls = .texRational ∨ o.cls = .partLinear ∨ o.cls = .partLog) : call (desc E) o kw = none := by
  rcases hc with h | h | h
  · exact call_none _ _ _ "skinum1" (by rw [h]; mem) (by rw [h]; simp [desc, texRationalD, stored, texRationalParams])
  · exact call_none _ _ _ "tickdists" (by rw [h]; mem) (by rw [h]; simp [desc, partLinearD, stored])
  · exact call_none _ _ _ "tickpreexps" (by rw [h]; mem) (by rw [h]; simp [desc, partLogD, stored])

/-- **Finding** (`axis.py:306`): logarithmic axes cannot be changed: a linear axis is made, which does not know `linearparter`. -/
theorem log_raises (o : Obj V) (hc : o.cls = .logarithmic) (kw : Kw V) : call (desc E) o kw = none := by
  cases h : call (desc E) o kw with
  | none => rfl
  | some o' =>
    exfalso
    unfold call at h
    by_cases hm : ∀ m ∈ (desc E o.cls).members, (desc E o.cls).attr o.val m ≠ none
    · rw [if_pos hm, hc] at h
      have hv := ((construct_iff _ _ _ _).1 h).1
      have h1 := hv.1 ["linearparter"] (by
        have e : memberKw (desc E .logarithmic) o.val ["linearparter"] = some (o.val "linearparter") := by
          simp [memberKw, desc, logarithmicD, stored]
        unfold merged over
        rw [e]
        cases given (desc E .logarithmic) kw ["linearparter"] <;> cases keptKw (desc E .logarithmic) o ["linearparter"] <;> simp)
      have h2 : "linearparter" ∈ (desc E .linear).names := h1
      revert h2
      mem
    · rw [if_neg hm] at h
      cases h

/-- **Finding** (`axis.py:367-395`): changing one parameter of a bar axis (or a split or nested bar axis) sets `subaxes`, `dist`, `firstdist`, `lastdist`, `title`,
`reverse` and `epsilon` to the defaults of `bar`, unless they are given again; and it is a bar axis then. -/
theorem bar_forgets (c : Cls) (hc : c = .bar ∨ c = .nestedbar ∨ c = .split) (kw : Kw V) (o : Obj V) (h : construct (desc E) c kw = some o) (kw' : Kw V) (o' : Obj V)
    (h' : call (desc E) o kw' = some o') (n : String) (hn : n ∈ ["subaxes", "dist", "firstdist", "lastdist", "title", "reverse", "epsilon"]) (hno : kw' [n] = none) :
    o'.val n = E.default .bar n ∧ o'.cls = .bar := by
  have hown : n ∈ barParams := by
    simp only [List.mem_cons, List.not_mem_nil, or_false] at hn
    rcases hn with rfl | rfl | rfl | rfl | rfl | rfl | rfl <;> decide
  have hmem : n ∉ ["defaultsubaxis", "painter", "linkpainter"] := by
    simp only [List.mem_cons, List.not_mem_nil, or_false] at hn
    rcases hn with rfl | rfl | rfl | rfl | rfl | rfl | rfl <;> decide
  have hd : (desc E c).own = barParams ∧ (desc E c).members = ["defaultsubaxis", "painter", "linkpainter"] ∧ (desc E c).result = .bar := by
    rcases hc with rfl | rfl | rfl <;> exact ⟨rfl, rfl, rfl⟩
  obtain ⟨-, rfl⟩ := (construct_iff _ _ _ _).1 h
  have h1 := call_some _ _ _ _ h'
  have h2 : (desc E (make (desc E) c kw).cls).result = .bar := hd.2.2
  rw [h2] at h1
  rw [h1]
  refine ⟨?_, rfl⟩
  show (if n ∈ (desc E .bar).names then _ else _) = _
  rw [if_pos (show n ∈ (desc E .bar).names from List.mem_append_left _ hown)]
  unfold Desc.bound
  rw [if_neg (fun hh => hmem hh.1)]
  have e1 : given (desc E c) kw' [n] = none := by
    unfold given
    rw [hno]; rfl
  have e2 : memberKw (desc E c) (make (desc E) c kw).val [n] = none := by
    simp only [memberKw]
    rw [if_neg]
    rw [hd.2.1]
    exact hmem
  have e3 : keptKw (desc E c) (make (desc E) c kw) [n] = none := by
    unfold keptKw
    have : (make (desc E) c kw).kwargs [n] = none := if_pos ⟨n, by rw [hd.1]; exact hown, rfl⟩
    rw [this]
    split_ifs <;> rfl
  have e4 : merged (desc E (make (desc E) c kw).cls) (make (desc E) c kw) kw' [n] = none := by
    show merged (desc E c) (make (desc E) c kw) kw' [n] = none
    unfold merged over
    rw [e1, e2, e3]; rfl
  rw [e4]
  rfl

theorem construct_none (D : Cls → Desc V) (c : Cls) (kw : Kw V) (n : String) (hn : n ∈ (D c).names) (h : (D c).bound kw n = none) : construct D c kw = none := by
  unfold construct
  exact if_neg fun hh => hh.2.2 n hn h

/-- **Finding** (`axis.py:373-374`, `544`): arguments for the painters of a bar axis and for the parter of an autosized axis cannot be given; `AttributeError` is raised. -/
theorem painter_raises (c : Cls) (n : String)
    (hc : (c = .bar ∨ c = .nestedbar ∨ c = .split) ∧ (n = "painter" ∨ n = "linkpainter") ∨ c = .autosizedlinear ∧ n = "parter") (kw : Kw V) (k : List String) (hk : k ≠ [])
    (h : kw (n :: k) ≠ none) : construct (desc E) c kw = none := by
  have hp : ∃ k, part kw n k ≠ none := ⟨k, by unfold part; rwa [if_neg hk]⟩
  refine construct_none _ c kw n ?_ ?_
  · rcases hc with ⟨rfl | rfl | rfl, rfl | rfl⟩ | ⟨rfl, rfl⟩ <;> mem
  · unfold Desc.bound
    rcases hc with ⟨rfl | rfl | rfl, rfl | rfl⟩ | ⟨rfl, rfl⟩ <;> rw [if_pos ⟨by mem, hp⟩] <;> simp [desc, barD, nestedbarD, splitD, autosizedlinearD, barSub]

/-- **Finding** (`texter.py:185`): arguments for the exponent texter have no effect. -/
theorem exponenttexter_ignored (kw : Kw V) (o : Obj V) (h : construct (desc E) .texDefault kw = some o) :
    o.val "exponenttexter" = (kw ["exponenttexter"]).getD (E.default .texDefault "exponenttexter") := by
  rw [((construct_iff _ _ _ _).1 h).2]
  rw [make_val _ _ _ _ (by mem)]
  unfold Desc.bound
  by_cases hp : "exponenttexter" ∈ (desc E .texDefault).subs ∧ ∃ k, part kw "exponenttexter" k ≠ none
  · rw [if_pos hp]; rfl
  · rw [if_neg hp]; rfl

/-- **Finding** (`texter.py:193`, `203-207`): a texter made without `minnegexponent` keeps the old limit for negative exponents when `minexponent` is changed. -/
theorem minnegexponent_kept (kw : Kw V) (o : Obj V) (h : construct (desc E) .texDefault kw = some o) (hneg : o.val "minnegexponent" = E.none') (hmin : o.val "minexponent" ≠ E.none')
    (kw' : Kw V) (hno : kw' ["minnegexponent"] = none) (o' : Obj V) (h' : call (desc E) o kw' = some o') :
    (desc E .texDefault).attr o'.val "minnegexponent" = some (o.val "minexponent") := by
  obtain ⟨-, rfl⟩ := (construct_iff _ _ _ _).1 h
  set o := make (desc E) .texDefault kw with ho
  rw [call_some _ _ _ _ h']
  have e1 : given (desc E .texDefault) kw' ["minnegexponent"] = none := by
    unfold given
    rw [hno]; rfl
  have e2 : memberKw (desc E .texDefault) o.val ["minnegexponent"] = some (o.val "minexponent") := by
    simp only [memberKw]
    rw [if_pos (by mem)]
    exact if_pos ⟨rfl, hneg⟩
  have e3 : keptKw (desc E .texDefault) o ["minnegexponent"] = none := by
    unfold keptKw
    have : o.kwargs ["minnegexponent"] = none := make_kwargs _ _ _ _ (by mem)
    rw [this]
    split_ifs <;> rfl
  have e4 : merged (desc E .texDefault) o kw' ["minnegexponent"] = some (o.val "minexponent") := by
    unfold merged over
    rw [e1, e2, e3]; rfl
  have e5 : (make (desc E) .texDefault (merged (desc E .texDefault) o kw')).val "minnegexponent" = o.val "minexponent" := by
    rw [make_val _ _ _ _ (by mem)]
    unfold Desc.bound
    rw [if_neg (fun hh => absurd hh.1 (by mem)), e4]
    rfl
  show (if "minnegexponent" = "minnegexponent" ∧ (make (desc E) .texDefault (merged (desc E .texDefault) o kw')).val "minnegexponent" = E.none' then _
    else stored texDefaultParams (make (desc E) .texDefault (merged (desc E .texDefault) o kw')).val "minnegexponent") = _
  rw [if_neg (by rintro ⟨-, hh⟩; rw [e5] at hh; exact hmin hh)]
  unfold stored
  rw [if_pos (by mem), e5]

/-! ## Patterns -/

/-- `pattern.__call__` (`pattern.py:55-72`), with the test `is not _marker` for `is _marker`, and the checks of `__init__` (`pattern.py:41-46`): `val` are the attributes of
the pattern. -/
noncomputable def patternCall (marker : V) (val : String → V) (kw : Kw V) : Option (String → V) :=
  if kw ["painttype"] = none ∨ kw ["tilingtype"] = none then none
  else some fun n => if kw [n] ≠ none then val n else marker

/-- **Finding** (`pattern.py:55-72`): calling a pattern raises `ValueError`, or ignores all arguments. -/
theorem pattern_call (marker : V) (val : String → V) (kw : Kw V) :
    (kw ["painttype"] = none → patternCall marker val kw = none) ∧
    ∀ val', patternCall marker val kw = some val' → ∀ n v, kw [n] = some v → val' n = val n := by
  unfold patternCall
  refine ⟨fun h => if_pos (Or.inl h), ?_⟩
  intro val' h n v hv
  split_ifs at h
  cases h
  simp [hv]

/-! ## Examples -/

/-- Values for examples: calling a value adds the number given for `x`. -/
def exEnv : Env ℕ := ⟨fun v kw => some ((kw ["x"]).getD v), fun kw => some ((kw ["plus"]).getD 7), fun _ => some 0, fun _ _ => 1, 0⟩

theorem exEnv_lawful : Lawful exEnv.call := by
  intro v a b w h
  simp only [exEnv, Option.some.injEq, over] at h ⊢
  subst h
  cases b ["x"] <;> cases a ["x"] <;> rfl

/-- Keyword arguments from a list. -/
def kwOf (l : List (List String × V)) : Kw V := fun k => (l.find? fun p => p.1 = k).map Prod.snd

/-- The hypotheses hold: a linear axis with a changed painter is changed twice. -/
example : ∃ o o', construct (desc exEnv) .linear (kwOf [(["min"], 3), (["painter", "x"], 5)]) = some o ∧
    call (desc exEnv) o (kwOf [(["max"], 4)]) = some o' ∧ o'.val "min" = 3 ∧ o'.val "max" = 4 ∧ o'.val "painter" = 5 := by
  have key : ∀ l : List (List String × ℕ), (∀ p ∈ l, (desc exEnv .linear).Known p.1) → ∃ o, construct (desc exEnv) .linear (kwOf l) = some o := by
    intro l hl
    refine ⟨_, (construct_iff _ _ _ _).2 ⟨?_, rfl⟩⟩
    · refine ⟨?_, (by intro n hn; cases hn), ?_⟩
      · intro k hk
        unfold kwOf at hk
        cases hf : l.find? fun p => p.1 = k with
        | none => rw [hf] at hk; exact absurd rfl hk
        | some p =>
          have := List.find?_some hf
          simp only [decide_eq_true_eq] at this
          rw [← this]
          exact hl p (List.mem_of_find?_eq_some hf)
      · intro n _
        unfold Desc.bound
        split_ifs
        · simp [desc, linearD, subCall, exEnv]
        · simp
  have hm : ∀ n v, (desc exEnv .linear).marker n v = false := fun _ _ => rfl
  have hgiven : ∀ kw : Kw ℕ, given (desc exEnv .linear) kw = kw := by
    intro kw; funext k; unfold given; cases kw k <;> rfl
  obtain ⟨o, ho⟩ := key [(["min"], 3), (["painter", "x"], 5)] (by
    intro p hp
    simp only [List.mem_cons, List.not_mem_nil, or_false] at hp
    rcases hp with rfl | rfl
    · show "min" ∈ (desc exEnv .linear).names; mem
    · exact ⟨rfl, by mem⟩)
  have hov : over (kwOf [(["max"], 4)]) (kwOf [(["min"], 3), (["painter", "x"], 5)]) = kwOf [(["max"], 4), (["min"], 3), (["painter", "x"], 5)] := by
    funext k
    unfold over kwOf
    by_cases h1 : ["max"] = k
    · subst h1; rfl
    · simp [List.find?, h1]
  obtain ⟨o', ho'⟩ := key [(["max"], 4), (["min"], 3), (["painter", "x"], 5)] (by
    intro p hp
    simp only [List.mem_cons, List.not_mem_nil, or_false] at hp
    rcases hp with rfl | rfl | rfl
    · show "max" ∈ (desc exEnv .linear).names; mem
    · show "min" ∈ (desc exEnv .linear).names; mem
    · exact ⟨rfl, by mem⟩)
  have hc : call (desc exEnv) o (kwOf [(["max"], 4)]) = some o' := by
    rw [copy exEnv exEnv_lawful .linear (by decide) _ o ho, hgiven, hov, ho']
  refine ⟨o, o', ho, hc, ?_⟩
  rw [((construct_iff _ _ _ _).1 ho').2]
  refine ⟨?_, ?_, ?_⟩
  · rw [make_val _ _ _ _ (by mem)]
    unfold Desc.bound
    rw [if_neg (fun hh => absurd hh.1 (by mem))]
    simp [kwOf]
  · rw [make_val _ _ _ _ (by mem)]
    unfold Desc.bound
    rw [if_neg (fun hh => absurd hh.1 (by mem))]
    simp [kwOf]
  · rw [make_val _ _ _ _ (by mem)]
    unfold Desc.bound
    rw [if_pos ⟨by mem, ["x"], by simp [part, kwOf]⟩]
    simp [desc, linearD, subCall, exEnv, part, kwOf]

/-- A bar axis with the title 9 loses it when its `epsilon` is changed: the hypotheses of `bar_forgets` hold. -/
example : ∃ o o', construct (desc exEnv) .bar (kwOf [(["title"], 9)]) = some o ∧ o.val "title" = 9 ∧
    call (desc exEnv) o (kwOf [(["epsilon"], 2)]) = some o' ∧ o'.val "title" = 1 ∧ o'.val "epsilon" = 2 := by
  have hv : (desc exEnv .bar).Valid (kwOf [(["title"], 9)]) := by
    refine ⟨?_, (by intro n hn; cases hn), ?_⟩
    · intro k hk
      by_cases h : k = ["title"]
      · subst h; show "title" ∈ (desc exEnv .bar).names; mem
      · exact absurd (by simp [kwOf, List.find?, Ne.symm h]) hk
    · intro n _
      unfold Desc.bound
      rw [if_neg]
      · simp
      · rintro ⟨-, k, hk⟩
        apply hk
        unfold part
        split_ifs with h0
        · rfl
        · simp [kwOf, List.find?, Ne.symm h0]
  have ho := (construct_iff (desc exEnv) .bar _ _).2 ⟨hv, rfl⟩
  set o := make (desc exEnv) .bar (kwOf [(["title"], 9)]) with hodef
  have hk : ∀ k, merged (desc exEnv .bar) o (kwOf [(["epsilon"], 2)]) k ≠ none → ∃ n ∈ barParams, k = [n] := by
    intro k hk
    match k with
    | [] => exact absurd rfl hk
    | [n] =>
      refine ⟨n, ?_, rfl⟩
      by_contra hn
      apply hk
      have h1 : n ≠ "epsilon" := by rintro rfl; exact hn (by mem)
      have h2 : n ≠ "title" := by rintro rfl; exact hn (by mem)
      have h3 : n ∉ ["defaultsubaxis", "painter", "linkpainter"] := by
        simp only [List.mem_cons, List.not_mem_nil, or_false]
        rintro (rfl | rfl | rfl) <;> exact hn (by mem)
      have e1 : given (desc exEnv .bar) (kwOf [(["epsilon"], 2)]) [n] = none := by simp [given, kwOf, List.find?, Ne.symm h1]
      have e2 : keptKw (desc exEnv .bar) o [n] = none := by
        unfold keptKw
        have : o.kwargs [n] = none := by
          rw [hodef]
          unfold make
          simp only
          split_ifs
          · rfl
          · simp [kwOf, List.find?, Ne.symm h2]
        rw [this]
        split_ifs <;> rfl
      have e3 : memberKw (desc exEnv .bar) o.val [n] = none := if_neg h3
      unfold merged over
      rw [e1, e2, e3]; rfl
    | a :: b :: l =>
      exfalso
      apply hk
      have e1 : given (desc exEnv .bar) (kwOf [(["epsilon"], 2)]) (a :: b :: l) = none := by simp [given, kwOf, List.find?]
      have e2 : keptKw (desc exEnv .bar) o (a :: b :: l) = none := by
        unfold keptKw
        have : o.kwargs (a :: b :: l) = none := by
          rw [hodef]
          unfold make
          simp only
          split_ifs
          · rfl
          · simp [kwOf, List.find?]
        rw [this]
        split_ifs <;> rfl
      have e3 : memberKw (desc exEnv .bar) o.val (a :: b :: l) = none := rfl
      unfold merged over
      rw [e1, e2, e3]; rfl
  have hsub : ∀ n, ¬ ∃ k, part (merged (desc exEnv .bar) o (kwOf [(["epsilon"], 2)])) n k ≠ none := by
    rintro n ⟨k, hne⟩
    unfold part at hne
    split_ifs at hne with h0
    · exact hne rfl
    · obtain ⟨m, -, hm⟩ := hk _ hne
      exact h0 (List.cons.inj hm).2
  have hcall : call (desc exEnv) o (kwOf [(["epsilon"], 2)]) = some (make (desc exEnv) .bar (merged (desc exEnv .bar) o (kwOf [(["epsilon"], 2)]))) := by
    unfold call
    rw [if_pos]
    · refine (construct_iff (desc exEnv) .bar _ _).2 ⟨⟨?_, (by intro n hn; cases hn), ?_⟩, rfl⟩
      · intro k hne
        obtain ⟨n, hn, rfl⟩ := hk k hne
        exact List.mem_append_left _ hn
      · intro n _
        unfold Desc.bound
        rw [if_neg (fun h => hsub n h.2)]
        simp
    · intro m hm
      have : m ∈ ["defaultsubaxis", "painter", "linkpainter"] := hm
      have h2 : m ∈ barParams := by
        simp only [List.mem_cons, List.not_mem_nil, or_false] at this
        rcases this with rfl | rfl | rfl <;> mem
      show stored barParams o.val m ≠ none
      simp [stored, h2]
  refine ⟨o, _, ho, ?_, hcall, ?_, ?_⟩
  · rw [hodef, make_val _ _ _ _ (by mem)]
    unfold Desc.bound
    rw [if_neg (fun h => absurd h.1 (by mem))]
    simp [kwOf]
  · exact (bar_forgets exEnv .bar (Or.inl rfl) _ o ho _ _ hcall "title" (by simp) (by simp [kwOf])).1
  · rw [make_val _ _ _ _ (by mem)]
    unfold Desc.bound
    rw [if_neg (fun h => hsub _ h.2)]
    have : merged (desc exEnv .bar) o (kwOf [(["epsilon"], 2)]) ["epsilon"] = some 2 := rfl
    rw [this]; rfl

end PyX.Util.Cfg
