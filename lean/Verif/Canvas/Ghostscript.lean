import Mathlib.Data.Rat.Floor
import Mathlib.Tactic.NormNum
import Mathlib.Data.List.Basic

/-!
# C173: output by Ghostscript (`canvas.writeGSfile`, `canvas.pipeGS`, `pyx/canvas.py:433-519`)
-/

set_option linter.unusedSectionVars false
set_option linter.unusedSimpArgs false

namespace PyX.Canvas.Ghostscript

abbrev Str := List Char

def lit (s : String) : Str := s.toList

inductive Err
  | runtime
  | attribute
  | writer
  | value
deriving DecidableEq, Repr

/-- `endswith`. -/
def endsWith (s t : Str) : Bool := t.isSuffixOf s

/-- `startswith`. -/
def startsWith (s t : Str) : Bool := t.isPrefixOf s

/-- `"%d" % x` cuts to an integer (`canvas.py:436`). -/
def cut (x : ℚ) : ℤ := if 0 ≤ x then ⌊x⌋ else ⌈x⌉

def int (z : ℤ) : Str := (toString z).toList

/-- The keyword arguments of `_gscmd` (`canvas.py:433-434`). -/
structure Options where
  resolution : ℚ := 100
  gs : Str := lit "gs"
  gsoptions : List Str := []
  textalphabits : Option ℤ := some 4
  graphicsalphabits : Option ℤ := some 4
  ciecolor : Bool := false

/-- The number of bits, if there is one (`canvas.py:437-440`). -/
def bits (key : Str) : Option ℤ → List Str
  | some b => [lit "-d" ++ key ++ lit "=" ++ int b]
  | none => []

def flag (b : Bool) (s : Str) : List Str := if b then [s] else []

/-- `_gscmd` (`canvas.py:433-445`): the command without its input. -/
def gscmd (device filename : Str) (o : Options) : List Str :=
  [o.gs, lit "-dEPSCrop", lit "-dNOPAUSE", lit "-dQUIET", lit "-dBATCH", lit "-r" ++ int (cut o.resolution), lit "-sDEVICE=" ++ device, lit "-sOutputFile=" ++ filename]
    ++ bits (lit "TextAlphaBits") o.textalphabits ++ bits (lit "GraphicsAlphaBits") o.graphicsalphabits ++ flag o.ciecolor (lit "-dUseCIEColor") ++ o.gsoptions

/-- The name of the file (`canvas.py:458-466`); `argv` is `sys.argv[0]`. `None.startswith` is an `AttributeError`. -/
def guessName (argv : Str) (filename device : Option Str) : Except Err Str :=
  match filename with
  | some f => .ok f
  | none =>
    if ! endsWith argv (lit ".py") then .error .runtime
    else match device with
      | none => .error .attribute
      | some d =>
        if startsWith d (lit "png") then .ok (argv.take (argv.length - 2) ++ lit "png")
        else if startsWith d (lit "jpeg") then .ok (argv.take (argv.length - 2) ++ lit "jpg")
        else .ok (argv.take (argv.length - 2) ++ d)

/-- The device (`canvas.py:467-473`). -/
def guessDevice (filename : Str) (device : Option Str) : Except Err Str :=
  match device with
  | some d => .ok d
  | none =>
    if endsWith filename (lit ".png") then .ok (lit "png16m")
    else if endsWith filename (lit ".jpg") then .ok (lit "jpeg")
    else .error .runtime

inductive Input
  | eps
  | pdf
  | other
deriving DecidableEq

/-- What is outside: the bytes the writers produce (or their exception), and what Ghostscript does for a command, the bytes at its standard input and the bytes of the temporary file: exit code, standard output, and
standard error. -/
structure World where
  eps : Except Err (List ℕ)
  pdf : Except Err (List ℕ)
  gs : List Str → List ℕ → List ℕ → ℕ × List ℕ × List ℕ

/-- The processes run, with what they get, and the temporary files left. -/
structure State where
  runs : List (List Str × List ℕ × List ℕ) := []
  temp : List (Str × List ℕ) := []

/-- `with tempfile.NamedTemporaryFile("wb", delete=False)`: the file stays when an exception is raised (`canvas.py:486-488, 504-511`). -/
def tempfile (fname : Str) (written : Except Err (List ℕ)) (s : State) : State × Except Err (List ℕ) :=
  match written with
  | .ok b => (⟨s.runs, (fname, b) :: s.temp⟩, .ok b)
  | .error e => (⟨s.runs, (fname, []) :: s.temp⟩, .error e)

/-- Starting the program and waiting for it. -/
def run (cmd : List Str) (stdin file : List ℕ) (s : State) : State := ⟨s.runs ++ [(cmd, stdin, file)], s.temp⟩

/-- `os.unlink`. -/
def unlink (fname : Str) (s : State) : State := ⟨s.runs, s.temp.filter fun t => t.1 ≠ fname⟩

/-- `writeGSfile` (`canvas.py:447-494`); `fname` is the name of the temporary file. The exit code is not looked at. -/
def writeGSfile (W : World) (argv fname : Str) (filename device : Option Str) (input : Input) (o : Options) (s : State) : State × Except Err Unit :=
  match guessName argv filename device with
  | .error e => (s, .error e)
  | .ok f =>
    match guessDevice f device with
    | .error e => (s, .error e)
    | .ok d =>
      match input with
      | .eps =>
        match W.eps with
        | .error e => (run (gscmd d f o ++ [lit "-"]) [] [] s, .error e)
        | .ok b => (run (gscmd d f o ++ [lit "-"]) b [] s, .ok ())
      | .pdf =>
        match tempfile fname W.pdf s with
        | (s, .error e) => (s, .error e)
        | (s, .ok b) => (unlink fname (run (gscmd d f o ++ [fname]) [] b s), .ok ())
      | .other => (s, .error .runtime)

/-- What is written to the temporary file of `pipeGS` (`canvas.py:505-510`). -/
def written (W : World) : Input → Except Err (List ℕ)
  | .eps => W.eps
  | .pdf => W.pdf
  | .other => .error .runtime

/-- What `communicate` gives: the standard error only if it has been asked for by `stderr=PIPE` (`canvas.py:514-515`). -/
def communicate (r : ℕ × List ℕ × List ℕ) (piped : Bool) : List ℕ × Option (List ℕ) := (r.2.1, if piped then some r.2.2 else none)

/-- `if error:`, for bytes or `None`. -/
def truth : Option (List ℕ) → Bool
  | none => false
  | some b => ! b.isEmpty

/-- `pipeGS` (`canvas.py:497-520`). -/
def pipeGS (W : World) (fname device : Str) (input : Input) (o : Options) (s : State) : State × Except Err (List ℕ) :=
  match tempfile fname (written W input) s with
  | (s, .error e) => (s, .error e)
  | (s, .ok b) =>
    let cmd := gscmd device (lit "-") o ++ [fname]
    let r := communicate (W.gs cmd [] b) false
    let s := unlink fname (run cmd [] b s)
    if truth r.2 then (s, .error .value) else (s, .ok r.1)

/-! ## Specification: how Ghostscript reads its arguments -/

/-- An argument `-sKEY=VALUE` or `-dKEY=VALUE` sets the key, which ends at the first `=`; without `=` the value is empty. -/
def setting : Str → Option (Str × Str)
  | '-' :: c :: r => if c = 's' ∨ c = 'd' then some (r.takeWhile (· ≠ '='), (r.dropWhile (· ≠ '=')).drop 1) else none
  | _ => none

/-- The last setting of a key counts. -/
def lookup (key : Str) (args : List Str) : Option Str := (args.filterMap setting).reverse.lookup key

/-! ## Proofs -/

theorem lookup_append (key : Str) (l m : List Str) : lookup key (l ++ m) = (lookup key m).or (lookup key l) := by
  unfold lookup
  rw [List.filterMap_append, List.reverse_append, List.lookup_append]

theorem setting_value (key value : Str) (hk : '=' ∉ key) (c : Char) (hc : c = 's' ∨ c = 'd') : setting ('-' :: c :: (key ++ '=' :: value)) = some (key, value) := by
  change (if c = 's' ∨ c = 'd' then some ((key ++ '=' :: value).takeWhile (· ≠ '='), ((key ++ '=' :: value).dropWhile (· ≠ '=')).drop 1) else none) = _
  rw [if_pos hc]
  have h : ∀ x ∈ key, decide (x ≠ '=') = true := fun x hx => by
    simp only [decide_eq_true_eq]
    exact fun e => hk (e ▸ hx)
  rw [List.takeWhile_append_of_pos h, List.dropWhile_append_of_pos h]
  simp

theorem lookup_one (key k value : Str) (a : Str) (h : setting a = some (k, value)) : lookup key [a] = if key = k then some value else none := by
  unfold lookup
  simp only [List.filterMap_cons, h, List.filterMap_nil, List.reverse_singleton, List.lookup_cons, List.lookup_nil]
  by_cases e : key = k
  · subst e; simp
  · rw [if_neg e]
    have : (key == k) = false := by simpa using e
    rw [this]

theorem lookup_none (key : Str) (l : List Str) (h : ∀ a ∈ l, ∀ k v, setting a = some (k, v) → k ≠ key) : lookup key l = none := by
  unfold lookup
  rw [List.lookup_eq_none_iff]
  intro p hp
  simp only [List.mem_reverse, List.mem_filterMap] at hp
  obtain ⟨a, ha, hs⟩ := hp
  have := h a ha p.1 p.2 hs
  simpa using fun e : key = p.1 => this e.symm

theorem bits_setting (key : Str) (hk : '=' ∉ key) (b : Option ℤ) : ∀ a ∈ bits key b, ∀ k v, setting a = some (k, v) → k = key := by
  cases b with
  | none => simp [bits]
  | some b =>
    intro a ha k v hs
    simp only [bits, List.mem_singleton] at ha
    subst ha
    have e : lit "-d" ++ key ++ lit "=" ++ int b = '-' :: 'd' :: (key ++ '=' :: int b) := by
      change (['-', 'd'] ++ key) ++ ['='] ++ int b = _
      simp
    rw [e, setting_value key _ hk 'd' (Or.inr rfl)] at hs
    cases hs
    rfl

theorem flag_setting (b : Bool) : ∀ a ∈ flag b (lit "-dUseCIEColor"), ∀ k v, setting a = some (k, v) → k = lit "UseCIEColor" := by
  cases b with
  | false => simp [flag]
  | true =>
    intro a ha k v hs
    simp only [flag, if_true, List.mem_singleton] at ha
    subst ha
    have : setting (lit "-dUseCIEColor") = some (lit "UseCIEColor", []) := by decide +kernel
    rw [this] at hs
    cases hs
    rfl

theorem res_setting (z : ℤ) : setting (lit "-r" ++ int z) = none := by
  change (if 'r' = 's' ∨ 'r' = 'd' then some ((int z).takeWhile (· ≠ '='), ((int z).dropWhile (· ≠ '=')).drop 1) else none) = _
  rw [if_neg (by decide)]

/-- What the first arguments set. -/
theorem gscmd_head (device filename key : Str) (o : Options) (hgs : setting o.gs = none) (h1 : key ≠ lit "TextAlphaBits") (h2 : key ≠ lit "GraphicsAlphaBits") (h3 : key ≠ lit "UseCIEColor") :
    lookup key (gscmd device filename o) = (lookup key o.gsoptions).or (lookup key [lit "-dEPSCrop", lit "-dNOPAUSE", lit "-dQUIET", lit "-dBATCH", lit "-sDEVICE=" ++ device, lit "-sOutputFile=" ++ filename]) := by
  unfold gscmd
  rw [lookup_append, lookup_append, lookup_append, lookup_append]
  rw [lookup_none key (flag _ _) (fun a ha k v hs e => h3 (by rw [← e, flag_setting _ a ha k v hs]))]
  rw [lookup_none key (bits (lit "GraphicsAlphaBits") _) (fun a ha k v hs e => h2 (by rw [← e, bits_setting _ (by decide +kernel) _ a ha k v hs]))]
  rw [lookup_none key (bits (lit "TextAlphaBits") _) (fun a ha k v hs e => h1 (by rw [← e, bits_setting _ (by decide +kernel) _ a ha k v hs]))]
  simp only [Option.none_or]
  congr 1
  unfold lookup
  simp only [List.filterMap_cons, hgs, res_setting]

theorem sDEVICE (device : Str) : setting (lit "-sDEVICE=" ++ device) = some (lit "DEVICE", device) := setting_value (lit "DEVICE") device (by decide +kernel) 's' (Or.inl rfl)

theorem sOutputFile (filename : Str) : setting (lit "-sOutputFile=" ++ filename) = some (lit "OutputFile", filename) := setting_value (lit "OutputFile") filename (by decide +kernel) 's' (Or.inl rfl)

/-- **C173.** Ghostscript finds exactly the device and the name of the file given, whatever characters they contain, unless they are set by `gsoptions`, which count more. -/
theorem gscmd_output (device filename : Str) (o : Options) (hgs : setting o.gs = none) :
    lookup (lit "DEVICE") (gscmd device filename o) = (lookup (lit "DEVICE") o.gsoptions).or (some device) ∧
    lookup (lit "OutputFile") (gscmd device filename o) = (lookup (lit "OutputFile") o.gsoptions).or (some filename) := by
  rw [gscmd_head _ _ _ _ hgs (by decide +kernel) (by decide +kernel) (by decide +kernel), gscmd_head _ _ _ _ hgs (by decide +kernel) (by decide +kernel) (by decide +kernel)]
  have e : [lit "-dEPSCrop", lit "-dNOPAUSE", lit "-dQUIET", lit "-dBATCH", lit "-sDEVICE=" ++ device, lit "-sOutputFile=" ++ filename]
      = [lit "-dEPSCrop", lit "-dNOPAUSE", lit "-dQUIET", lit "-dBATCH"] ++ ([lit "-sDEVICE=" ++ device] ++ [lit "-sOutputFile=" ++ filename]) := rfl
  rw [e]
  constructor
  · rw [lookup_append _ _ (_ ++ _), lookup_append _ [_] [_], lookup_one _ _ _ _ (sDEVICE device), lookup_one _ _ _ _ (sOutputFile filename), if_neg (by decide +kernel), if_pos rfl]
    rfl
  · rw [lookup_append _ _ (_ ++ _), lookup_append _ [_] [_], lookup_one _ _ _ _ (sOutputFile filename), if_pos rfl]
    rfl

theorem lookup_bits (key : Str) (hk : '=' ∉ key) (b : Option ℤ) : lookup key (bits key b) = b.map int := by
  cases b with
  | none => rfl
  | some b =>
    have e : lit "-d" ++ key ++ lit "=" ++ int b = '-' :: 'd' :: (key ++ '=' :: int b) := by
      change (['-', 'd'] ++ key) ++ ['='] ++ int b = _
      simp
    rw [bits, e, lookup_one _ _ _ _ (setting_value key _ hk 'd' (Or.inr rfl)), if_pos rfl]
    rfl

theorem head_alpha (device filename key : Str) (o : Options) (hgs : setting o.gs = none) (h1 : key ≠ lit "DEVICE") (h2 : key ≠ lit "OutputFile") (h3 : lookup key [lit "-dEPSCrop", lit "-dNOPAUSE", lit "-dQUIET", lit "-dBATCH"] = none) :
    lookup key [o.gs, lit "-dEPSCrop", lit "-dNOPAUSE", lit "-dQUIET", lit "-dBATCH", lit "-r" ++ int (cut o.resolution), lit "-sDEVICE=" ++ device, lit "-sOutputFile=" ++ filename] = none := by
  have e : [o.gs, lit "-dEPSCrop", lit "-dNOPAUSE", lit "-dQUIET", lit "-dBATCH", lit "-r" ++ int (cut o.resolution), lit "-sDEVICE=" ++ device, lit "-sOutputFile=" ++ filename]
      = [o.gs] ++ ([lit "-dEPSCrop", lit "-dNOPAUSE", lit "-dQUIET", lit "-dBATCH"] ++ ([lit "-r" ++ int (cut o.resolution)] ++ ([lit "-sDEVICE=" ++ device] ++ [lit "-sOutputFile=" ++ filename]))) := rfl
  have n1 : lookup key [o.gs] = none := by simp [lookup, hgs]
  have n2 : lookup key [lit "-r" ++ int (cut o.resolution)] = none := by simp [lookup, res_setting]
  rw [e, lookup_append _ [o.gs], lookup_append _ [lit "-dEPSCrop", lit "-dNOPAUSE", lit "-dQUIET", lit "-dBATCH"], lookup_append _ [lit "-r" ++ int (cut o.resolution)], lookup_append _ [lit "-sDEVICE=" ++ device],
    lookup_one _ _ _ _ (sDEVICE device), lookup_one _ _ _ _ (sOutputFile filename), if_neg h1, if_neg h2, h3, n1, n2]
  rfl

/-- **C173.** The bits for smoothing text and graphics are those given, nothing is said about them for `None`, and the colors of the CIE are used only on demand; `gsoptions` count more. -/
theorem gscmd_alpha (device filename : Str) (o : Options) (hgs : setting o.gs = none) :
    lookup (lit "TextAlphaBits") (gscmd device filename o) = (lookup (lit "TextAlphaBits") o.gsoptions).or (o.textalphabits.map int) ∧
    lookup (lit "GraphicsAlphaBits") (gscmd device filename o) = (lookup (lit "GraphicsAlphaBits") o.gsoptions).or (o.graphicsalphabits.map int) ∧
    lookup (lit "UseCIEColor") (gscmd device filename o) = (lookup (lit "UseCIEColor") o.gsoptions).or (if o.ciecolor then some [] else none) := by
  have head := fun key => head_alpha device filename key o hgs
  have nf : ∀ key, key ≠ lit "UseCIEColor" → lookup key (flag o.ciecolor (lit "-dUseCIEColor")) = none := fun key hk => lookup_none key _ fun a ha k v hs e => hk (by rw [← e, flag_setting _ a ha k v hs])
  have nt : ∀ key, key ≠ lit "TextAlphaBits" → lookup key (bits (lit "TextAlphaBits") o.textalphabits) = none := fun key hk =>
    lookup_none key _ fun a ha k v hs e => hk (by rw [← e, bits_setting _ (by decide +kernel) _ a ha k v hs])
  have ng : ∀ key, key ≠ lit "GraphicsAlphaBits" → lookup key (bits (lit "GraphicsAlphaBits") o.graphicsalphabits) = none := fun key hk =>
    lookup_none key _ fun a ha k v hs e => hk (by rw [← e, bits_setting _ (by decide +kernel) _ a ha k v hs])
  have fc : lookup (lit "UseCIEColor") (flag o.ciecolor (lit "-dUseCIEColor")) = if o.ciecolor then some [] else none := by
    cases o.ciecolor
    · rfl
    · decide +kernel
  unfold gscmd
  refine ⟨?_, ?_, ?_⟩
  · rw [lookup_append, lookup_append, lookup_append, lookup_append, head _ (by decide +kernel) (by decide +kernel) (by decide +kernel), nf _ (by decide +kernel), ng _ (by decide +kernel),
      lookup_bits _ (by decide +kernel)]
    simp
  · rw [lookup_append, lookup_append, lookup_append, lookup_append, head _ (by decide +kernel) (by decide +kernel) (by decide +kernel), nf _ (by decide +kernel), nt _ (by decide +kernel),
      lookup_bits _ (by decide +kernel)]
    simp
  · rw [lookup_append, lookup_append, lookup_append, lookup_append, head _ (by decide +kernel) (by decide +kernel) (by decide +kernel), ng _ (by decide +kernel), nt _ (by decide +kernel), fc]
    simp

/-- **C173.** The options of the user come last in the command. -/
theorem gscmd_options (device filename : Str) (o : Options) : o.gsoptions <:+ gscmd device filename o ∧ (gscmd device filename o).head? = some o.gs :=
  ⟨⟨_, rfl⟩, rfl⟩

/-- **C173, violated.** The resolution is cut to an integer without notice. -/
theorem resolution_cut : gscmd (lit "png16m") (lit "a.png") { resolution := 999 / 10 } = gscmd (lit "png16m") (lit "a.png") { resolution := 99 } := by
  have h : cut (999 / 10) = cut 99 := by
    unfold cut
    rw [if_pos (by norm_num), if_pos (by norm_num), Int.floor_eq_iff.mpr (show ((99 : ℤ) : ℚ) ≤ 999 / 10 ∧ (999 / 10 : ℚ) < (99 : ℤ) + 1 by norm_num),
      Int.floor_eq_iff.mpr (show ((99 : ℤ) : ℚ) ≤ 99 ∧ (99 : ℚ) < (99 : ℤ) + 1 by norm_num)]
  unfold gscmd
  dsimp only
  rw [h]

theorem endsWith_iff (s t : Str) : endsWith s t = true ↔ ∃ r, s = r ++ t := by
  unfold endsWith
  rw [List.isSuffixOf_iff_suffix]
  exact ⟨fun ⟨r, h⟩ => ⟨r, h.symm⟩, fun ⟨r, h⟩ => ⟨r, h.symm⟩⟩

/-- **C173.** Without a device, it is that of the suffix, `png` or `jpg`, and any other is an error; a device given is used. -/
theorem device_guess (base : Str) (d : Str) (f : Str) : guessDevice (base ++ lit ".png") none = .ok (lit "png16m") ∧ guessDevice (base ++ lit ".jpg") none = .ok (lit "jpeg") ∧ guessDevice f (some d) = .ok d ∧
    ((¬ ∃ r, f = r ++ lit ".png" ∨ f = r ++ lit ".jpg") → guessDevice f none = .error .runtime) := by
  refine ⟨?_, ?_, rfl, fun h => ?_⟩
  · unfold guessDevice
    rw [if_pos ((endsWith_iff _ _).mpr ⟨base, rfl⟩)]
  · unfold guessDevice
    dsimp only
    rw [if_neg ?_, if_pos ((endsWith_iff _ _).mpr ⟨base, rfl⟩)]
    rw [endsWith_iff]
    rintro ⟨r, hr⟩
    have := congrArg (fun l => l.reverse.take 4) hr
    simp only [List.reverse_append] at this
    rw [List.take_left' (by decide +kernel), List.take_left' (by decide +kernel)] at this
    exact absurd this (by decide +kernel)
  · unfold guessDevice
    dsimp only
    rw [if_neg (fun e => h ?_), if_neg (fun e => h ?_)]
    · obtain ⟨r, hr⟩ := (endsWith_iff _ _).mp e
      exact ⟨r, Or.inr hr⟩
    · obtain ⟨r, hr⟩ := (endsWith_iff _ _).mp e
      exact ⟨r, Or.inl hr⟩

theorem cutpy (base : Str) : (base ++ lit ".py").take ((base ++ lit ".py").length - 2) = base ++ lit "." := by
  have e : base ++ lit ".py" = (base ++ lit ".") ++ lit "py" := by rw [List.append_assoc]; rfl
  rw [e]
  refine List.take_left' ?_
  have : (lit "py").length = 2 := by decide +kernel
  rw [List.length_append (as := base ++ lit "."), this]
  omega

/-- **C173.** Without a filename, it is that of the script, with `png` for all devices starting with this, `jpg` for `jpeg`, and otherwise the device. A name given is used. -/
theorem name_guess (base d f argv : Str) (dev : Option Str) :
    guessName (base ++ lit ".py") none (some (lit "png" ++ d)) = .ok (base ++ lit ".png") ∧ guessName (base ++ lit ".py") none (some (lit "jpeg" ++ d)) = .ok (base ++ lit ".jpg") ∧
    guessName argv (some f) dev = .ok f ∧
    (startsWith d (lit "png") = false → startsWith d (lit "jpeg") = false → guessName (base ++ lit ".py") none (some d) = .ok (base ++ lit "." ++ d)) := by
  have hpy : endsWith (base ++ lit ".py") (lit ".py") = true := (endsWith_iff _ _).mpr ⟨base, rfl⟩
  refine ⟨?_, ?_, rfl, fun h1 h2 => ?_⟩
  · unfold guessName
    dsimp only
    rw [if_neg (by rw [hpy]; decide), if_pos (by simp [startsWith]), cutpy, List.append_assoc]
    rfl
  · unfold guessName
    dsimp only
    rw [if_neg (by rw [hpy]; decide), if_neg (by change ¬ (List.isPrefixOf ['p', 'n', 'g'] ('j' :: 'p' :: 'e' :: 'g' :: d)) = true; simp [List.isPrefixOf]), if_pos (by simp [startsWith]), cutpy, List.append_assoc]
    rfl
  · unfold guessName
    dsimp only
    rw [if_neg (by rw [hpy]; decide), if_neg (by simp [h1]), if_neg (by simp [h2]), cutpy]

/-- **C173.** Without both, in a script, it is an `AttributeError`. -/
theorem name_missing (base : Str) : guessName (base ++ lit ".py") none none = .error .attribute := by
  unfold guessName
  dsimp only
  rw [if_neg (by rw [(endsWith_iff _ _).mpr ⟨base, rfl⟩]; decide)]

/-- **C173.** When writing works, Ghostscript is run once, on the whole EPS or PDF output, and no temporary file is left. -/
theorem write_runs (W : World) (argv fname f d : Str) (input : Input) (o : Options) (s : State) (hf : ∀ t ∈ s.temp, t.1 ≠ fname) (b : List ℕ) (hw : written W input = .ok b) :
    (writeGSfile W argv fname (some f) (some d) input o s).2 = .ok () ∧ (writeGSfile W argv fname (some f) (some d) input o s).1.temp = s.temp ∧
    ∃ cmd stdin file, (writeGSfile W argv fname (some f) (some d) input o s).1.runs = s.runs ++ [(gscmd d f o ++ [cmd], stdin, file)] ∧
      ((cmd = lit "-" ∧ stdin = b) ∨ (cmd = fname ∧ file = b)) := by
  have hfil : s.temp.filter (fun t => t.1 ≠ fname) = s.temp := List.filter_eq_self.mpr fun t ht => by simpa using hf t ht
  unfold writeGSfile guessName guessDevice
  cases input with
  | other => cases hw
  | eps =>
    have hw : W.eps = .ok b := hw
    simp only [hw]
    exact ⟨trivial, rfl, _, _, _, rfl, Or.inl ⟨rfl, rfl⟩⟩
  | pdf =>
    have hw : W.pdf = .ok b := hw
    simp only [hw, tempfile]
    refine ⟨trivial, ?_, _, _, _, rfl, Or.inr ⟨rfl, rfl⟩⟩
    simp only [unlink, run, List.filter_cons, ne_eq, not_true_eq_false, decide_false, Bool.false_eq_true, if_false]
    exact hfil

/-- **C173.** `pipeGS` gives what Ghostscript writes, and leaves no temporary file. -/
theorem pipe_result (W : World) (fname d : Str) (input : Input) (o : Options) (s : State) (hf : ∀ t ∈ s.temp, t.1 ≠ fname) (b : List ℕ) (hw : written W input = .ok b) :
    pipeGS W fname d input o s = (⟨s.runs ++ [(gscmd d (lit "-") o ++ [fname], [], b)], s.temp⟩, .ok (W.gs (gscmd d (lit "-") o ++ [fname]) [] b).2.1) := by
  have hfil : s.temp.filter (fun t => t.1 ≠ fname) = s.temp := List.filter_eq_self.mpr fun t ht => by simpa using hf t ht
  unfold pipeGS
  rw [hw]
  simp only [tempfile, communicate, truth, unlink, run, List.filter_cons, ne_eq, not_true_eq_false, decide_false, Bool.false_eq_true, if_false]
  congr 2

/-- **C173, violated.** Failures of Ghostscript are not seen: neither its exit code nor what it writes to the standard error changes the result. -/
theorem failure_unseen (W W' : World) (argv fname d : Str) (f d' : Option Str) (input : Input) (o : Options) (s : State) (he : W'.eps = W.eps) (hp : W'.pdf = W.pdf)
    (hg : ∀ c i t, (W'.gs c i t).2.1 = (W.gs c i t).2.1) :
    writeGSfile W' argv fname f d' input o s = writeGSfile W argv fname f d' input o s ∧ pipeGS W' fname d input o s = pipeGS W fname d input o s := by
  have hw : written W' input = written W input := by cases input <;> simp [written, he, hp]
  constructor
  · unfold writeGSfile
    rw [he, hp]
  · unfold pipeGS
    rw [hw]
    simp only [communicate, hg, Bool.false_eq_true, if_false]

/-- So the `ValueError` is never raised. -/
theorem never_value (W : World) (fname d : Str) (input : Input) (o : Options) (s : State) (he : W.eps ≠ .error .value) (hp : W.pdf ≠ .error .value) : (pipeGS W fname d input o s).2 ≠ .error .value := by
  have hw : written W input ≠ .error .value := by cases input <;> simp [written, he, hp]
  unfold pipeGS tempfile
  cases h : written W input with
  | error e =>
    intro h'
    apply hw
    rw [h]
    simpa using h'
  | ok b => simp [communicate, truth]

/-- **C173, violated.** When writing fails, or with a wrong input, the temporary file stays. -/
theorem temp_left (W : World) (fname d : Str) (input : Input) (o : Options) (s : State) (e : Err) (hw : written W input = .error e) :
    (pipeGS W fname d input o s).2 = .error e ∧ (fname, []) ∈ (pipeGS W fname d input o s).1.temp := by
  unfold pipeGS
  rw [hw]
  exact ⟨rfl, by simp [tempfile]⟩

theorem temp_left_write (W : World) (argv fname f d : Str) (o : Options) (s : State) (e : Err) (hw : W.pdf = .error e) :
    (writeGSfile W argv fname (some f) (some d) .pdf o s).2 = .error e ∧ (fname, []) ∈ (writeGSfile W argv fname (some f) (some d) .pdf o s).1.temp := by
  unfold writeGSfile guessName guessDevice
  rw [hw]
  exact ⟨rfl, by simp [tempfile]⟩

/-- A file with an equals sign in its name, converted from PDF by a Ghostscript that fails. -/
theorem ex_gs : writeGSfile ⟨.ok [1], .ok [2], fun _ _ _ => (1, [], [3])⟩ (lit "a.py") (lit "tmp1") (some (lit "x=1.png")) none .pdf {} {} =
      (⟨[(gscmd (lit "png16m") (lit "x=1.png") {} ++ [lit "tmp1"], [], [2])], []⟩, .ok ()) ∧
    lookup (lit "OutputFile") (gscmd (lit "png16m") (lit "x=1.png") {}) = some (lit "x=1.png") := by
  refine ⟨?_, ?_⟩
  · have h := (device_guess (lit "x=1") [] []).1
    have e : lit "x=1" ++ lit ".png" = lit "x=1.png" := by decide +kernel
    rw [e] at h
    unfold writeGSfile
    simp only [guessName, h, tempfile, unlink, run]
    rfl
  · rw [(gscmd_output _ _ {} (by decide +kernel)).2]
    rfl

end PyX.Canvas.Ghostscript
