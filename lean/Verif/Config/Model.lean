import Mathlib.Data.List.Basic
import Verif.MapFile.Model

/-!
# Locating files (`pyx/config.py`)

Strings are lists of characters.  The file system, the package data, the answers of `kpsewhich`/`pykpathsea` and the `ls-R` files are given
by a `World`.  An opener (the Python `lambda`s and `_opener`s) is kept as data (`Opener`), because what it opens may depend on the state of its locator
when it is called.  The locator `locate` is not modelled: its method fails with a `NameError` (undefined name `extensions`, line 275).  Log messages
and `fix_cygwin` (identity outside Windows) are left out.
-/

set_option linter.unusedSectionVars false

namespace PyX.Config

open PyX.MapFile (Str)

/-- `config.format` (`config.py:44-47`). -/
structure Format where
  name : Str
  extensions : List Str
deriving DecidableEq, Repr

/-- `filename.endswith(extension)` for one of the extensions (`config.py:68-70`). -/
def hasExtension (filename : Str) (formats : List Format) : Bool :=
  formats.any fun f => f.extensions.any fun e => e.isSuffixOf filename

/-- `full_filenames` (`config.py:66-82`). -/
def fullFilenames (filename : Str) (formats : List Format) : List Str :=
  if hasExtension filename formats then [filename]
  else formats.flatMap fun f => if f.extensions ≠ [] then f.extensions.map (filename ++ ·) else [filename]

/-- `os.path.join` (POSIX) with two arguments. -/
def join (dir item : Str) : Str :=
  if item.head? = some '/' then item
  else if dir = [] ∨ dir.getLast? = some '/' then dir ++ item
  else dir ++ '/' :: item

/-- The part of a path after the last slash. -/
def basename (p : Str) : Str := (p.reverse.takeWhile (· ≠ '/')).reverse

/-- `os.path.splitext(p)[1][1:]` (POSIX, `config.py:99`): what follows the last dot of the base name, leading dots not counted. -/
def extension (p : Str) : Str :=
  let b := (basename p).dropWhile (· = '.')
  if '.' ∈ b then (b.reverse.takeWhile (· ≠ '.')).reverse else []

/-- `"data/%s/%s" % (dir, full_filename)` (`config.py:101`). -/
def dataPath (full : Str) : Str := "data/".toList ++ extension full ++ '/' :: full

/-- An entry of a directory. -/
inductive Node where
  | file
  | dir (items : List (Str × Node))

abbrev Bytes := List ℕ

/-- What the operating system provides.  `find` is `kpsewhich --format name file` (`none` for `OSError`, the empty string if nothing is found). -/
structure World where
  files : Str → Option Bytes
  pkg : Str → Option Bytes
  find : Str → Str → Option Str

/-- The functions returned by the locators.  `recdir i n` and `lsr i n` look up the file name `n` in the cache of the `i`-th locator when called. -/
inductive Opener where
  /-- `lambda: builtinopen(p, "rb")` -/
  | file (p : Str)
  /-- `lambda: io.BytesIO(data)` -/
  | data (b : Bytes)
  /-- `_opener` of `kpsewhich` and `pykpathsea` (lines 184-190, 255-261) -/
  | tool (p : Str)
  /-- `lambda: builtinopen(self.path_cache[n], "rb")` (lines 123, 136, 166) -/
  | cached (i : ℕ) (n : Str)
deriving DecidableEq, Repr

/-- A dictionary of file names. -/
abbrev Cache := List (Str × Str)

/-- `d[k]`: the entry written last. -/
def Cache.lookup (c : Cache) (k : Str) : Option Str := (c.find? fun p => p.1 = k).map (·.2)

/-- An exception of an `openers` method. -/
inductive Err where
  /-- an `EnvironmentError` (`os.listdir`, opening an `ls-R` file) -/
  | io
  /-- `UnboundLocalError` of `dir` (line 163) -/
  | unbound
deriving DecidableEq, Repr

/-- A configured locator with its state. -/
inductive Method where
  | localDir
  | internal
  /-- `kpsewhich`, or `pykpathsea` if available -/
  | tool
  /-- `recursivedir`: the remaining directories and `path_cache` -/
  | recursivedir (dirs : List (Str × Node)) (cache : Cache)
  /-- `ls_R`: directory and lines of the `ls-R` files (`none`: missing file), and `path_cache` -/
  | lsr (lists : List (Str × Option (List Str))) (cache : Cache)

/-- `local.openers` (`config.py:88-89`).  All the `lambda`s share the variable of the comprehension, whose value is that of the last iteration when they are called. -/
def localOpeners (filename : Str) (formats : List Format) : List Opener :=
  (fullFilenames filename formats).map fun _ => .file ((fullFilenames filename formats).getLastD [])

/-- The loop of `internal.openers` (`config.py:97-107`). -/
def internalLoop (w : World) : List Str → List Opener
  | [] => []
  | full :: rest =>
    match w.pkg (dataPath full) with
    | some (b :: bs) => [.data (b :: bs)]
    | _ => internalLoop w rest

/-- The `openers` methods of `kpsewhich` (`config.py:239-262`) and `pykpathsea` (`config.py:175-191`). -/
def toolLoop (w : World) (filename : Str) : List Format → List Opener
  | [] => []
  | f :: rest =>
    match w.find f.name filename with
    | none => []
    | some [] => toolLoop w filename rest
    | some (c :: cs) => [.tool (c :: cs)]

/-- The result of reading one directory: the new directories, the cache and `found`. -/
structure Scan where
  dirs : List (Str × Node)
  cache : Cache
  found : Option Str

/-- The loop over a directory (`config.py:127-134`). -/
def listDir (names : List Str) (dir : Str) : List (Str × Node) → Scan → Scan
  | [], s => s
  | (item, .dir items) :: rest, s => listDir names dir rest { s with dirs := (join dir item, .dir items) :: s.dirs }
  | (item, .file) :: rest, s =>
    listDir names dir rest
      { s with cache := (item, join dir item) :: s.cache, found := if item ∈ names then some item else s.found }

/-- Number of entries of a directory tree. -/
def Node.size : Node → ℕ
  | .file => 1
  | .dir items => 1 + sizes items
where sizes : List (Str × Node) → ℕ
  | [] => 0
  | (_, n) :: rest => n.size + sizes rest

/-- The entries still to be read. -/
def total (dirs : List (Str × Node)) : ℕ := (dirs.map fun p => p.2.size).sum

/-- The loop `while self.dirs` (`config.py:125-137`) with fuel; `total dirs` is enough (`scanDirs_fuel`). -/
def scanDirs (names : List Str) : ℕ → List (Str × Node) → Cache → List (Str × Node) × Cache × Except Err (Option Str)
  | 0, dirs, cache => (dirs, cache, .ok none)
  | _ + 1, [], cache => ([], cache, .ok none)
  | _ + 1, (_, .file) :: rest, cache => (rest, cache, .error .io)
  | n + 1, (d, .dir items) :: rest, cache =>
    let s := listDir names d items ⟨rest, cache, none⟩
    match s.found with
    | some f => (s.dirs, s.cache, .ok (some f))
    | none => scanDirs names n s.dirs s.cache

/-- The first of the names in the cache (`config.py:121-122`, `164-165`). -/
def firstCached (names : List Str) (cache : Cache) : Option Str := names.find? fun n => (cache.lookup n).isSome

/-- `str.rstrip()`. -/
def rstrip (s : Str) : Str := PyX.MapFile.rstrip Char.isWhitespace s

/-- The loop over the lines of an `ls-R` file (`config.py:154-163`); the arguments are the base directory, `first`, `dir` and `path_cache`. -/
def lsrLines (base : Str) : List Str → Bool → Option Str → Cache → Except Err (Option Str × Cache)
  | [], _, dir, cache => .ok (dir, cache)
  | l :: rest, first, dir, cache =>
    let line := rstrip l
    if first = true ∧ line.head? = some '%' then lsrLines base rest first dir cache
    else if line.getLast? = some ':' then lsrLines base rest false (some (join base line.dropLast)) cache
    else if line ≠ [] ∧ (cache.lookup line).isNone then
      match dir with
      | none => .error .unbound
      | some d => lsrLines base rest false dir ((line, join d line) :: cache)
    else lsrLines base rest false dir cache

/-- The loop over the `ls-R` files (`config.py:150-163`). -/
def lsrFiles : List (Str × Option (List Str)) → Option Str → Cache → Cache × Option Err
  | [], _, cache => (cache, none)
  | (_, none) :: _, _, cache => (cache, some .io)
  | (base, some lines) :: rest, dir, cache =>
    match lsrLines base lines true dir cache with
    | .error e => (cache, some e)
    | .ok (dir, cache) => lsrFiles rest dir cache

/-- The method `openers` of a locator with index `i`; returns the locator with its new state.  When an `ls-R` file fails the entries of this file read before the failure are
dropped here, in the code they stay in the cache. -/
def openers (w : World) (i : ℕ) (filename : Str) (formats : List Format) : Method → Method × Except Err (List Opener)
  | .localDir => (.localDir, .ok (localOpeners filename formats))
  | .internal => (.internal, .ok (internalLoop w (fullFilenames filename formats)))
  | .tool => (.tool, .ok (toolLoop w filename formats))
  | .recursivedir dirs cache =>
    match firstCached (fullFilenames filename formats) cache with
    | some n => (.recursivedir dirs cache, .ok [.cached i n])
    | none =>
      match scanDirs (fullFilenames filename formats) (total dirs + 1) dirs cache with
      | (dirs, cache, .error e) => (.recursivedir dirs cache, .error e)
      | (dirs, cache, .ok none) => (.recursivedir dirs cache, .ok [])
      | (dirs, cache, .ok (some n)) => (.recursivedir dirs cache, .ok [.cached i n])
  | .lsr lists cache =>
    match if cache = [] then lsrFiles lists none [] else (cache, none) with
    | (cache, some e) => (.lsr lists cache, .error e)
    | (cache, none) =>
      match firstCached (fullFilenames filename formats) cache with
      | some n => (.lsr lists cache, .ok [.cached i n])
      | none => (.lsr lists cache, .ok [])

/-- `self.path_cache` of a locator. -/
def Method.pathCache : Method → Cache
  | .recursivedir _ c => c
  | .lsr _ c => c
  | _ => []

/-- Calling an opener: an exception (`none`), the value `None` (`some none`), or a file. -/
def call (w : World) (ms : List Method) : Opener → Option (Option Bytes)
  | .file p => (w.files p).map some
  | .data b => some (some b)
  | .tool p => some (w.files p)
  | .cached i n =>
    match (ms[i]?.bind fun m => m.pathCache.lookup n).bind w.files with
    | none => none
    | some c => some (some c)

/-- The loop over the openers (`config.py:379-390`). -/
def tryOpeners (w : World) (ms : List Method) : List Opener → Option (Opener × Bytes)
  | [] => none
  | o :: rest =>
    match call w ms o with
    | some (some c) => some (o, c)
    | _ => tryOpeners w ms rest

/-- The result of `config.open`. -/
inductive Result where
  | file (c : Bytes)
  /-- `None` is returned -/
  | nothing
  /-- `IOError` -/
  | ioError
  /-- an exception of an `openers` method -/
  | raised (e : Err)
deriving DecidableEq, Repr

/-- The result of the search with the opener to be cached. -/
inductive Search where
  | found (o : Opener) (c : Bytes)
  | notFound
  | raised (e : Err)
deriving DecidableEq, Repr

/-- The loop over the locators (`config.py:377-397`); the first list contains the locators already asked. -/
def search (w : World) (filename : Str) (formats : List Format) : List Method → List Method → List Method × Search
  | pre, [] => (pre, .notFound)
  | pre, m :: ms =>
    match openers w pre.length filename formats m with
    | (m', .error e) => (pre ++ m' :: ms, .raised e)
    | (m', .ok os) =>
      match tryOpeners w (pre ++ m' :: ms) os with
      | some (o, c) => (pre ++ m' :: ms, .found o c)
      | none => search w filename formats (pre ++ [m']) ms

/-- The locators `methods` and `opener_cache` (`config.py:365-367`). -/
structure State where
  methods : List Method
  cache : List ((Str × List Str) × Opener) := []

/-- `opener_cache[key]`. -/
def State.lookup (st : State) (k : Str × List Str) : Option Opener := (st.cache.find? fun p => p.1 = k).map (·.2)

/-- `config.open` (`config.py:370-401`). -/
def openFile (w : World) (filename : Str) (formats : List Format) (st : State) : State × Result :=
  let key := (filename, formats.map (·.name))
  match st.lookup key with
  | some o =>
    match call w st.methods o with
    | none => (st, .ioError)
    | some none => (st, .nothing)
    | some (some c) => (st, .file c)
  | none =>
    match search w filename formats [] st.methods with
    | (ms, .found o c) => ({ methods := ms, cache := (key, o) :: st.cache }, .file c)
    | (ms, .notFound) => ({ st with methods := ms }, .ioError)
    | (ms, .raised e) => ({ st with methods := ms }, .raised e)

end PyX.Config
