import Verif.Config.Props

/-!
# C175: the fonts and encodings of lines of font maps (`pyx/dvi/mapfile.py:126-156`)

Files are opened by `openFile` of `Verif.Config.Model`, so that locators, their states and `opener_cache` are those of `config.py`.  The readers of the file formats are parameters (`Readers`),
with `none` for an exception which is not an `EnvironmentError`; they are modelled elsewhere (`Verif.T1`, `Verif.Font.Afm`, `Verif.Font.Pfm`, `Verif.Font.Encoding`).  Fonts are compared as values.
-/

set_option linter.unusedSectionVars false

namespace PyX.MapFile

open PyX.Config (World Format State Method Result openFile fullFilenames type1 texPsHeader Bytes)

/-- The readers: `T1File.from_PF_bytes` and its `name`, `AFMfile`, `PFMfile`, and name and vector of `ENCfile`. -/
structure Readers (T A P V : Type) where
  t1 : Bytes → Option T
  name : T → Str
  afm : Bytes → Option A
  pfm : Bytes → T → Option P
  enc : Bytes → Option (Str × V)

/-- The argument `metric` of `T1font` (`font/font.py:408`). -/
inductive Metric (A P : Type) where
  | afm (a : A)
  | pfm (p : P)
  | missing
deriving DecidableEq, Repr

/-- `T1font` and `T1builtinfont` (`font/font.py:406-422`). -/
inductive Font (T A P : Type) where
  | type1 (t : T) (m : Metric A P)
  | builtin (name : Str) (a : A)
deriving DecidableEq, Repr

/-- Exceptions. -/
inductive Exc where
  /-- an `EnvironmentError` -/
  | env
  /-- `UnboundLocalError` of a locator -/
  | unbound
  /-- `config.open` returned `None` -/
  | isNone
  /-- the reader of the file raises -/
  | reader
  /-- `AssertionError` -/
  | assertion
deriving DecidableEq, Repr

/-- `format.afm` (`config.py:50`). -/
def afmFormat : Format := ⟨"afm".toList, [".afm".toList]⟩

/-- The string `".pfm"` (`mapfile.py:140`). -/
def pfmEnd : Str := ['.', 'p', 'f', 'm']

/-- `os.path.splitext(p)[0]` (POSIX). -/
def root (p : Str) : Str :=
  if '.' ∈ (PyX.Config.basename p).dropWhile (· = '.') then p.take (p.length - (PyX.Config.extension p).length - 1) else p

/-- The exception of `with config.open(…) as file`, if there is one, otherwise the contents. -/
def contents : Result → Except Exc Bytes
  | .file c => .ok c
  | .nothing => .error .isNone
  | .ioError => .error .env
  | .raised .io => .error .env
  | .raised .unbound => .error .unbound

variable {T A P V F : Type}

/-- A reader applied to contents. -/
def reading {X : Type} (r : Option X) : Except Exc X :=
  match r with
  | some x => .ok x
  | none => .error .reader

/-- The metrics of a font file (`mapfile.py:132-144`), when the font program has been read. -/
def metrics (rd : Readers T A P V) (w : World) (file : Str) (t : T) (st : State) : State × Except Exc (Metric A P) :=
  match contents (openFile w (root file) [afmFormat] st).2 with
  | .ok c => ((openFile w (root file) [afmFormat] st).1, (reading (rd.afm c)).map .afm)
  | .error .env =>
    match contents (openFile w (root file ++ pfmEnd) [type1] (openFile w (root file) [afmFormat] st).1).2 with
    | .ok c => ((openFile w (root file ++ pfmEnd) [type1] (openFile w (root file) [afmFormat] st).1).1, (reading (rd.pfm c t)).map .pfm)
    | .error .env => ((openFile w (root file ++ pfmEnd) [type1] (openFile w (root file) [afmFormat] st).1).1, .ok .missing)
    | .error e => ((openFile w (root file ++ pfmEnd) [type1] (openFile w (root file) [afmFormat] st).1).1, .error e)
  | .error e => ((openFile w (root file) [afmFormat] st).1, .error e)

/-- The body of `getfont` (`mapfile.py:127-149`) if there is no font yet. -/
def loadFont (rd : Readers T A P V) (w : World) (m : MAPline F) (st : State) : State × Except Exc (Font T A P) :=
  match m.fontfilename with
  | some file =>
    match contents (openFile w file [type1] st).2 with
    | .error e => ((openFile w file [type1] st).1, .error e)
    | .ok c =>
      match rd.t1 c with
      | none => ((openFile w file [type1] st).1, .error .reader)
      | some t =>
        if m.basepsname = some (rd.name t) then
          ((metrics rd w file t (openFile w file [type1] st).1).1, (metrics rd w file t (openFile w file [type1] st).1).2.map (.type1 t))
        else ((openFile w file [type1] st).1, .error .assertion)
  | none =>
    match m.basepsname with
    | none => (st, .error .reader)
    | some name =>
      match contents (openFile w name [afmFormat] st).2 with
      | .error e => ((openFile w name [afmFormat] st).1, .error e)
      | .ok c => ((openFile w name [afmFormat] st).1, (reading (rd.afm c)).map (.builtin name))

/-- The part of a line which changes: `_font` and `_encoding` (`_marker` is the outer `none`). -/
structure Slots (T A P V : Type) where
  font : Option (Font T A P) := none
  encoding : Option (Option V) := none

/-- `getfont` (`mapfile.py:126-149`). -/
def getfont (rd : Readers T A P V) (w : World) (m : MAPline F) (s : State × Slots T A P V) : (State × Slots T A P V) × Except Exc (Font T A P) :=
  match s.2.font with
  | some f => (s, .ok f)
  | none =>
    match loadFont rd w m s.1 with
    | (st, .ok f) => ((st, { s.2 with font := some f }), .ok f)
    | (st, .error e) => ((st, s.2), .error e)

/-- `"/%s" % self.reencodefont`. -/
def encodingName (r : Option Str) : Str := '/' :: r.getD "None".toList

/-- The body of `getencoding` (`mapfile.py:152-160`) if there is no encoding yet. -/
def loadEncoding (rd : Readers T A P V) (w : World) (m : MAPline F) (st : State) : State × Except Exc (Option V) :=
  match m.encodingfilename with
  | none => (st, .ok none)
  | some file =>
    match contents (openFile w file [texPsHeader] st).2 with
    | .error e => ((openFile w file [texPsHeader] st).1, .error e)
    | .ok c =>
      match rd.enc c with
      | none => ((openFile w file [texPsHeader] st).1, .error .reader)
      | some (n, v) => ((openFile w file [texPsHeader] st).1, if n = encodingName m.reencodefont then .ok (some v) else .error .assertion)

/-- `getencoding` (`mapfile.py:151-161`). -/
def getencoding (rd : Readers T A P V) (w : World) (m : MAPline F) (s : State × Slots T A P V) : (State × Slots T A P V) × Except Exc (Option V) :=
  match s.2.encoding with
  | some v => (s, .ok v)
  | none =>
    match loadEncoding rd w m s.1 with
    | (st, .ok v) => ((st, { s.2 with encoding := some v }), .ok v)
    | (st, .error e) => ((st, s.2), .error e)

/-- A call of one of the methods, in the world of that moment. -/
inductive Call where
  | font (w : World)
  | encoding (w : World)

/-- A result. -/
inductive Answer (T A P V : Type) where
  | font (r : Except Exc (Font T A P))
  | encoding (r : Except Exc (Option V))

def doCall (rd : Readers T A P V) (m : MAPline F) (s : State × Slots T A P V) : Call → (State × Slots T A P V) × Answer T A P V
  | .font w => ((getfont rd w m s).1, .font (getfont rd w m s).2)
  | .encoding w => ((getencoding rd w m s).1, .encoding (getencoding rd w m s).2)

/-- The results of calls one after another. -/
def answers (rd : Readers T A P V) (m : MAPline F) (s : State × Slots T A P V) : List Call → List (Answer T A P V)
  | [] => []
  | c :: cs => (doCall rd m s c).2 :: answers rd m (doCall rd m s c).1 cs

/-! ## One font for each line -/

theorem doCall_font (rd : Readers T A P V) (m : MAPline F) (s : State × Slots T A P V) (c : Call) (f : Font T A P) (h : s.2.font = some f) :
    (doCall rd m s c).1.2.font = some f := by
  cases c with
  | font w => simp only [doCall, getfont, h]
  | encoding w =>
    simp only [doCall, getencoding]
    split
    · exact h
    · split <;> exact h

theorem answers_font (rd : Readers T A P V) (m : MAPline F) (cs : List Call) (s : State × Slots T A P V) (f : Font T A P) (h : s.2.font = some f)
    (r : Except Exc (Font T A P)) (hr : Answer.font r ∈ answers rd m s cs) : r = .ok f := by
  induction cs generalizing s with
  | nil => simp [answers] at hr
  | cons c cs ih =>
    rw [answers, List.mem_cons] at hr
    rcases hr with hr | hr
    · cases c with
      | font w =>
        simp only [doCall, getfont, h, Answer.font.injEq] at hr
        exact hr
      | encoding w => simp [doCall] at hr
    · exact ih _ (doCall_font rd m s c f h) hr

theorem getfont_kept (rd : Readers T A P V) (w : World) (m : MAPline F) (s : State × Slots T A P V) (f : Font T A P) (h : (getfont rd w m s).2 = .ok f) :
    (getfont rd w m s).1.2.font = some f := by
  unfold getfont at h ⊢
  split at h
  · next g hg => rw [hg]; simp only [Except.ok.injEq] at h; rw [← h]
  · next hn =>
    rcases hl : loadFont rd w m s.1 with ⟨st, _ | g⟩
    · rw [hl] at h; simp at h
    · rw [hl] at h
      simp only [Except.ok.injEq] at h
      rw [h]

/-- **C175**: all successful calls of `getfont` of a line give the same font, whatever happens to the files in between, and after a successful call all calls are successful. -/
theorem one_font (rd : Readers T A P V) (m : MAPline F) (s : State × Slots T A P V) (cs : List Call) (i j : ℕ) (f : Font T A P) (r : Except Exc (Font T A P))
    (hi : (answers rd m s cs)[i]? = some (.font (.ok f))) (hij : i ≤ j) (hj : (answers rd m s cs)[j]? = some (.font r)) : r = .ok f := by
  induction cs generalizing s i j with
  | nil => simp [answers] at hi
  | cons c cs ih =>
    rw [answers] at hi hj
    cases i with
    | succ i =>
      obtain ⟨j, rfl⟩ : ∃ k, j = k + 1 := ⟨j - 1, by omega⟩
      exact ih _ i j hi (by omega) hj
    | zero =>
      rw [List.getElem?_cons_zero, Option.some.injEq] at hi
      cases c with
      | encoding w => simp [doCall] at hi
      | font w =>
        simp only [doCall, Answer.font.injEq] at hi
        cases j with
        | zero =>
          rw [List.getElem?_cons_zero, Option.some.injEq] at hj
          simp only [doCall, Answer.font.injEq] at hj
          rw [← hj, hi]
        | succ j =>
          rw [List.getElem?_cons_succ] at hj
          exact answers_font rd m cs _ f (getfont_kept rd w m s f hi) r (List.mem_of_getElem? hj)

/-- **C175**: a call of `getfont` which fails leaves no font behind; the next call tries again with the files of that time. -/
theorem failure_again (rd : Readers T A P V) (w w' : World) (m : MAPline F) (s : State × Slots T A P V) (e : Exc) (h : (getfont rd w m s).2 = .error e) :
    (getfont rd w' m (getfont rd w m s).1).2 = (loadFont rd w' m (getfont rd w m s).1.1).2 := by
  have hn : (getfont rd w m s).1.2.font = none := by
    unfold getfont at h ⊢
    split at h
    · simp at h
    · next hn =>
      rcases hl : loadFont rd w m s.1 with ⟨st, _ | g⟩
      · simp only [hn]
      · rw [hl] at h; simp at h
  generalize getfont rd w m s = x at *
  unfold getfont
  rw [hn]
  rcases loadFont rd w' m x.1.1 with ⟨st, _ | g⟩ <;> rfl

/-! ## Which font it is -/

/-- The file a request gets: the contents, or that there is no such file. -/
def Gets (w : World) (st : State) (name : Str) (f : Format) (c : Bytes) (st' : State) : Prop := openFile w name [f] st = (st', .file c)

def Misses (w : World) (st : State) (name : Str) (f : Format) (st' : State) : Prop := openFile w name [f] st = (st', .ioError)

/-- The specification: what the font of a line is, by the files which are there.  The states are those of the locators. -/
inductive IsFont (rd : Readers T A P V) (w : World) (m : MAPline F) (st : State) : Font T A P → Prop
  | afm (file c a : _) (t : T) (x : A) (st₁ st₂ : State) : m.fontfilename = some file → Gets w st file type1 c st₁ → rd.t1 c = some t → m.basepsname = some (rd.name t) →
      Gets w st₁ (root file) afmFormat a st₂ → rd.afm a = some x → IsFont rd w m st (.type1 t (.afm x))
  | pfm (file c p : _) (t : T) (x : P) (st₁ st₂ st₃ : State) : m.fontfilename = some file → Gets w st file type1 c st₁ → rd.t1 c = some t → m.basepsname = some (rd.name t) →
      Misses w st₁ (root file) afmFormat st₂ → Gets w st₂ (root file ++ pfmEnd) type1 p st₃ → rd.pfm p t = some x → IsFont rd w m st (.type1 t (.pfm x))
  | bare (file c : _) (t : T) (st₁ st₂ st₃ : State) : m.fontfilename = some file → Gets w st file type1 c st₁ → rd.t1 c = some t → m.basepsname = some (rd.name t) →
      Misses w st₁ (root file) afmFormat st₂ → Misses w st₂ (root file ++ pfmEnd) type1 st₃ → IsFont rd w m st (.type1 t .missing)
  | builtin (name c : _) (x : A) (st₁ : State) : m.fontfilename = none → m.basepsname = some name → Gets w st name afmFormat c st₁ → rd.afm c = some x →
      IsFont rd w m st (.builtin name x)

/-- **C175**: the first call gives the font which the line and the files say. -/
theorem font_found (rd : Readers T A P V) (w : World) (m : MAPline F) (st : State) (sl : Slots T A P V) (hs : sl.font = none) (f : Font T A P) (h : IsFont rd w m st f) :
    (getfont rd w m (st, sl)).2 = .ok f := by
  have hl : (loadFont rd w m st).2 = .ok f := by
    cases h with
    | afm file c a t x st₁ st₂ h1 h2 h3 h4 h5 h6 =>
      unfold Gets at h2 h5
      simp only [loadFont, h1, h2, contents, h3, if_pos h4, metrics, h5, h6, reading, Except.map]
    | pfm file c p t x st₁ st₂ st₃ h1 h2 h3 h4 h5 h6 h7 =>
      unfold Gets at h2 h6
      unfold Misses at h5
      simp only [loadFont, h1, h2, contents, h3, if_pos h4, metrics, h5, h6, h7, reading, Except.map]
    | bare file c t st₁ st₂ st₃ h1 h2 h3 h4 h5 h6 =>
      unfold Gets at h2
      unfold Misses at h5 h6
      simp only [loadFont, h1, h2, contents, h3, if_pos h4, metrics, h5, h6, Except.map]
    | builtin name c x st₁ h1 h2 h3 h4 =>
      unfold Gets at h3
      simp only [loadFont, h1, h2, h3, contents, h4, reading, Except.map]
  unfold getfont
  rw [hs]
  rcases e : loadFont rd w m st with ⟨st', r⟩
  rw [e] at hl
  simp only at hl
  subst hl
  rfl

/-- **C175**: AFM files which are there but cannot be read are an error, even if there is a PFM file. -/
theorem bad_afm (rd : Readers T A P V) (w : World) (m : MAPline F) (st st₁ st₂ : State) (sl : Slots T A P V) (hs : sl.font = none) (file : Str) (c a : Bytes) (t : T)
    (h1 : m.fontfilename = some file) (h2 : Gets w st file type1 c st₁) (h3 : rd.t1 c = some t) (h5 : Gets w st₁ (root file) afmFormat a st₂) (h6 : rd.afm a = none) :
    ∃ e, (getfont rd w m (st, sl)).2 = .error e := by
  unfold Gets at h2 h5
  unfold getfont
  rw [hs]
  by_cases h4 : m.basepsname = some (rd.name t)
  · exact ⟨.reader, by simp only [loadFont, h1, h2, contents, h3, if_pos h4, metrics, h5, h6, reading, Except.map]⟩
  · exact ⟨.assertion, by simp only [loadFont, h1, h2, contents, h3, if_neg h4]⟩

/-- **C175**: a font program with another name than that of the line is an error. -/
theorem wrong_name (rd : Readers T A P V) (w : World) (m : MAPline F) (st st₁ : State) (sl : Slots T A P V) (hs : sl.font = none) (file : Str) (c : Bytes) (t : T)
    (h1 : m.fontfilename = some file) (h2 : Gets w st file type1 c st₁) (h3 : rd.t1 c = some t) (h4 : m.basepsname ≠ some (rd.name t)) :
    (getfont rd w m (st, sl)).2 = .error .assertion := by
  unfold Gets at h2
  unfold getfont
  rw [hs]
  simp only [loadFont, h1, h2, contents, h3, if_neg h4]

/-! ## PFM files -/

/-- The names under which the locators look for a PFM file end with `.pfm.pfa` or `.pfm.pfb`. -/
theorem pfm_names (r : Str) : fullFilenames (r ++ pfmEnd) [type1] = [r ++ pfmEnd ++ ".pfa".toList, r ++ pfmEnd ++ ".pfb".toList] := by
  have hn : ¬ PyX.Config.hasExtension (r ++ pfmEnd) [type1] = true := by
    rw [PyX.Config.hasExtension_iff]
    rintro ⟨f, hf, e, he, t, ht⟩
    rw [List.mem_singleton] at hf
    subst hf
    have hx : ∀ e ∈ type1.extensions, e ≠ [] ∧ e.getLast? ≠ pfmEnd.getLast? := by decide +kernel
    obtain ⟨h0, h1⟩ := hx e he
    have h' := congrArg List.getLast? ht
    rw [List.getLast?_append_of_ne_nil _ (by decide : pfmEnd ≠ []), List.getLast?_append_of_ne_nil _ h0] at h'
    exact h1 h'.symm
  rw [fullFilenames, if_neg hn]
  rfl

/-- Locators which look for files under the names of `full_filenames` in the current directory and in the package (the methods `local` and `internal`). -/
def Named (m : Method) : Prop := m = .localDir ∨ m = .internal

/-- A request which the locators `local` and `internal` cannot answer. -/
theorem named_missed (w : World) (st : State) (a x y : Str) (f : Format) (hn : fullFilenames a [f] = [x, y]) (hm : ∀ m ∈ st.methods, Named m)
    (hc : st.lookup (a, [f.name]) = none) (h1 : w.files y = none) (h2 : w.pkg (PyX.Config.dataPath x) = none) (h3 : w.pkg (PyX.Config.dataPath y) = none) :
    (openFile w a [f] st).2 = .ioError := by
  rw [PyX.Config.open_first w _ _ st hc]
  have : ∀ (l : List Method) (k : ℕ), (∀ m ∈ l, Named m) →
      PyX.Config.firstAnswer ((l.zipIdx k).map fun p => PyX.Config.serves w p.2 a [f] p.1) = .ioError := by
    intro l
    induction l with
    | nil => intro k _; rfl
    | cons m l ih =>
      intro k hl
      have hs : PyX.Config.serves w k a [f] m = .ok none := by
        rcases hl m (by simp) with rfl | rfl
        · rw [PyX.Config.local_serves, hn]
          simp [h1]
        · rw [PyX.Config.internal_serves, hn]
          simp only [List.findSome?_cons, List.findSome?_nil, h2, h3, Option.filter_none]
      rw [List.zipIdx_cons, List.map_cons, hs, PyX.Config.firstAnswer]
      exact ih (k + 1) fun m hm => hl m (List.mem_cons_of_mem _ hm)
  exact this st.methods 0 hm

/-- **C175 (refuted)**: without `kpsewhich` PFM files are not found: a font whose AFM file is missing has no metrics, whatever PFM files there are. -/
theorem pfm_ignored (rd : Readers T A P V) (w : World) (m : MAPline F) (st st₁ st₂ : State) (sl : Slots T A P V) (hs : sl.font = none) (file : Str) (c : Bytes) (t : T)
    (h1 : m.fontfilename = some file) (h2 : Gets w st file type1 c st₁) (h3 : rd.t1 c = some t) (h4 : m.basepsname = some (rd.name t)) (h5 : Misses w st₁ (root file) afmFormat st₂)
    (hm : ∀ m ∈ st₂.methods, Named m) (hc : st₂.lookup (root file ++ pfmEnd, [type1.name]) = none)
    (hw : w.files (root file ++ pfmEnd ++ ".pfb".toList) = none) (hp : w.pkg (PyX.Config.dataPath (root file ++ pfmEnd ++ ".pfa".toList)) = none)
    (hq : w.pkg (PyX.Config.dataPath (root file ++ pfmEnd ++ ".pfb".toList)) = none) :
    (getfont rd w m (st, sl)).2 = .ok (.type1 t .missing) := by
  apply font_found rd w m st sl hs
  have := named_missed w st₂ _ _ _ type1 (pfm_names (root file)) hm hc hw hp hq
  exact .bare file c t st₁ st₂ _ h1 h2 h3 h4 h5 (Prod.ext rfl this)

/-! ## Encodings -/

/-- **C175**: lines without an encoding file have no encoding. -/
theorem no_encoding (rd : Readers T A P V) (w : World) (m : MAPline F) (st : State) (sl : Slots T A P V) (hs : sl.encoding = none) (h : m.encodingfilename = none) :
    (getencoding rd w m (st, sl)).2 = .ok none := by
  unfold getencoding
  rw [hs]
  simp only [loadEncoding, h]

/-- **C175**: the encoding is the vector in the encoding file if and only if this encoding has the name in front of `ReEncodeFont`; without `ReEncodeFont` the name has to be `None`. -/
theorem encoding_iff (rd : Readers T A P V) (w : World) (m : MAPline F) (st st₁ : State) (sl : Slots T A P V) (hs : sl.encoding = none) (file n : Str) (c : Bytes) (v v' : V)
    (h : m.encodingfilename = some file) (hg : Gets w st file texPsHeader c st₁) (he : rd.enc c = some (n, v)) :
    (getencoding rd w m (st, sl)).2 = .ok (some v') ↔ v' = v ∧ ∃ r, n = '/' :: r ∧ (m.reencodefont = some r ∨ m.reencodefont = none ∧ r = "None".toList) := by
  have key : (n = encodingName m.reencodefont) ↔ ∃ r, n = '/' :: r ∧ (m.reencodefont = some r ∨ m.reencodefont = none ∧ r = "None".toList) := by
    unfold encodingName
    cases m.reencodefont with
    | none => simp
    | some r => simp
  unfold Gets at hg
  unfold getencoding
  rw [hs, ← key]
  simp only [loadEncoding, h, hg, contents, he]
  by_cases hn : n = encodingName m.reencodefont
  · rw [if_pos hn]
    constructor
    · intro e
      cases e
      exact ⟨rfl, hn⟩
    · rintro ⟨rfl, -⟩
      rfl
  · rw [if_neg hn]
    constructor
    · intro e
      cases e
    · rintro ⟨-, e⟩
      exact absurd e hn

/-- **C175 (refuted)**: a line with an encoding file and without `ReEncodeFont` cannot be used, unless the encoding is called `None`. -/
theorem no_reencode (rd : Readers T A P V) (w : World) (m : MAPline F) (st st₁ : State) (sl : Slots T A P V) (hs : sl.encoding = none) (file n : Str) (c : Bytes) (v : V)
    (h : m.encodingfilename = some file) (hr : m.reencodefont = none) (hg : Gets w st file texPsHeader c st₁) (he : rd.enc c = some (n, v)) (hn : n ≠ "/None".toList) :
    (getencoding rd w m (st, sl)).2 = .error .assertion := by
  unfold Gets at hg
  unfold getencoding
  rw [hs]
  have : n ≠ encodingName m.reencodefont := by rw [hr]; exact hn
  simp only [loadEncoding, h, hg, contents, he, if_neg this]

/-- **C175**: encodings are read once as well. -/
theorem one_encoding (rd : Readers T A P V) (w w' : World) (m : MAPline F) (s : State × Slots T A P V) (v : Option V) (h : (getencoding rd w m s).2 = .ok v) :
    getencoding rd w' m (getencoding rd w m s).1 = ((getencoding rd w m s).1, .ok v) := by
  have hk : (getencoding rd w m s).1.2.encoding = some v := by
    unfold getencoding at h ⊢
    split at h
    · next g hg => rw [hg]; simp only [Except.ok.injEq] at h; rw [← h]
    · next hn =>
      rcases hl : loadEncoding rd w m s.1 with ⟨st, _ | g⟩
      · rw [hl] at h; simp at h
      · rw [hl] at h
        simp only [Except.ok.injEq] at h
        rw [h]
  generalize getencoding rd w m s = x at *
  unfold getencoding
  rw [hk]

/-! ## Examples -/

/-- Font programs are their names, other files are numbers. -/
def exReaders : Readers Str ℕ ℕ ℕ where
  t1 c := some (c.map Char.ofNat)
  name t := t
  afm c := c.head?
  pfm c _ := c.head?
  enc c := some ("/E".toList, c.length)

def exLine : MAPline ℕ := { texname := some "cmr10".toList, basepsname := some "CMR10".toList, fontfilename := some "cmr10.pfb".toList, encodingfilename := some "e.enc".toList }

/-- The font program and metrics in the current directory. -/
def exWorld (l : List (String × Bytes)) : World :=
  ⟨fun p => (l.find? fun q => q.1.toList = p).map (·.2), fun _ => none, fun _ _ => some []⟩

def program : String × Bytes := ("cmr10.pfb", "CMR10".toList.map Char.toNat)

def exState : State := ⟨[.localDir, .internal, .tool], []⟩

example : root "fonts.d/cmr10.pfb".toList = "fonts.d/cmr10".toList ∧ root ".pfb".toList = ".pfb".toList ∧ root "a.b/c".toList = "a.b/c".toList := by decide +kernel

/-- The AFM file is used. -/
example : (getfont exReaders (exWorld [program, ("cmr10.afm", [7]), ("cmr10.pfm", [8])]) exLine (exState, {})).2.toOption = some (.type1 "CMR10".toList (.afm 7)) := by decide +kernel

/-- The PFM file in the same directory is not. -/
example : (getfont exReaders (exWorld [program, ("cmr10.pfm", [8])]) exLine (exState, {})).2.toOption = some (.type1 "CMR10".toList .missing) := by decide +kernel

/-- It is under another name, or if `kpsewhich` tells where it is. -/
example : (getfont exReaders (exWorld [program, ("cmr10.pfm.pfb", [8])]) exLine (exState, {})).2.toOption = some (.type1 "CMR10".toList (.pfm 8)) := by decide +kernel

example : (getfont exReaders { exWorld [program, ("cmr10.pfm", [8])] with find := fun _ n => some (if n = "cmr10.pfm".toList then n else []) } exLine (exState, {})).2.toOption =
    some (.type1 "CMR10".toList (.pfm 8)) := by decide +kernel

/-- An empty AFM file. -/
example : (getfont exReaders (exWorld [program, ("cmr10.afm", []), ("cmr10.pfm.pfb", [8])]) exLine (exState, {})).2.toOption = none := by decide +kernel

/-- The hypotheses of `pfm_ignored`. -/
example : (getfont exReaders (exWorld [program, ("cmr10.pfm", [8])]) exLine (⟨[.localDir, .internal], []⟩, {})).2 = .ok (.type1 "CMR10".toList .missing) := by
  refine pfm_ignored exReaders _ exLine ⟨[.localDir, .internal], []⟩ ⟨[.localDir, .internal], [(("cmr10.pfb".toList, [type1.name]), .file "cmr10.pfb".toList)]⟩
    ⟨[.localDir, .internal], [(("cmr10.pfb".toList, [type1.name]), .file "cmr10.pfb".toList)]⟩ {} rfl "cmr10.pfb".toList ("CMR10".toList.map Char.toNat) "CMR10".toList rfl rfl
    (by decide +kernel) (by decide +kernel) rfl ?_ (by decide +kernel) (by decide +kernel) rfl rfl
  intro m hm
  simp only [List.mem_cons, List.not_mem_nil, or_false] at hm
  exact hm

/-- No `ReEncodeFont` before the name of the encoding file. -/
example : (getencoding exReaders (exWorld [("e.enc", [1, 2])]) exLine (exState, {})).2.toOption = none ∧
    (getencoding exReaders (exWorld [("e.enc", [1, 2])]) { exLine with reencodefont := some "E".toList } (exState, {})).2.toOption = some (some 2) := by decide +kernel

end PyX.MapFile
