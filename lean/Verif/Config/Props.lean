import Mathlib.Data.List.Basic
import Mathlib.Tactic.Ring
import Mathlib.Tactic.Linarith
import Mathlib.Tactic.Push
import Mathlib.Tactic.SplitIfs
import Mathlib.Tactic.Tauto
import Verif.Config.Model

/-!
# C55: resource files are found in the configured order
-/

set_option linter.unusedSectionVars false

namespace PyX.Config

open PyX.MapFile (Str)

/-! ## The names tried -/

/-- The filename carries one of the extensions. -/
def Carries (filename : Str) (formats : List Format) : Prop := ∃ f ∈ formats, ∃ e ∈ f.extensions, ∃ t, filename = t ++ e

theorem hasExtension_iff (filename : Str) (formats : List Format) : hasExtension filename formats = true ↔ Carries filename formats := by
  unfold hasExtension Carries
  simp only [List.any_eq_true, List.isSuffixOf_iff_suffix]
  constructor
  · rintro ⟨f, hf, e, he, t, ht⟩
    exact ⟨f, hf, e, he, t, ht.symm⟩
  · rintro ⟨f, hf, e, he, t, ht⟩
    exact ⟨f, hf, e, he, t, ht.symm⟩

/-- **C55 (names)** A filename with a known extension is used as it is; otherwise the names are the filename with all the extensions of the first format in their order, then those of the
second format and so on, where a format without extensions stands for the filename itself. -/
theorem names_spec (filename : Str) (formats : List Format) :
    (Carries filename formats → fullFilenames filename formats = [filename]) ∧
      (¬ Carries filename formats →
        ∀ f1 f2 : List Format, ∀ f, formats = f1 ++ f :: f2 →
          ∃ a b, fullFilenames filename formats = a ++ (if f.extensions = [] then [filename] else f.extensions.map (filename ++ ·)) ++ b ∧
            a = fullFilenames filename f1 ∧ b = fullFilenames filename f2) := by
  constructor
  · intro h
    rw [fullFilenames, if_pos ((hasExtension_iff _ _).mpr h)]
  · intro h f1 f2 f hf
    have h1 : ¬ Carries filename f1 := by
      rintro ⟨g, hg, r⟩
      exact h ⟨g, by rw [hf]; exact List.mem_append_left _ hg, r⟩
    have h2 : ¬ Carries filename f2 := by
      rintro ⟨g, hg, r⟩
      exact h ⟨g, by rw [hf]; exact List.mem_append_right _ (List.mem_cons_of_mem _ hg), r⟩
    refine ⟨_, _, ?_, rfl, rfl⟩
    rw [fullFilenames, if_neg (fun e => h ((hasExtension_iff _ _).mp e)), fullFilenames,
      if_neg (fun e => h1 ((hasExtension_iff _ _).mp e)), fullFilenames, if_neg (fun e => h2 ((hasExtension_iff _ _).mp e)), hf]
    simp only [List.flatMap_append, List.flatMap_cons, ne_eq, ite_not, List.append_assoc]

/-- `format.type1` (`config.py:55`). -/
def type1 : Format := ⟨"type1 fonts".toList, [".pfa".toList, ".pfb".toList]⟩

/-- `format.tex_ps_header` (`config.py:54`). -/
def texPsHeader : Format := ⟨"PostScript header".toList, ["".toList, ".pro".toList]⟩

example : fullFilenames "cmr10".toList [type1] = ["cmr10.pfa".toList, "cmr10.pfb".toList] := by decide +kernel
example : fullFilenames "cmr10.pfb".toList [type1] = ["cmr10.pfb".toList] := by decide +kernel

/-- **C55 (extension never tried)** The format for PostScript headers lists the extensions "" and ".pro", but as every name ends with the empty string the extension ".pro" is never tried. -/
theorem pro_never_tried (filename : Str) (formats : List Format) (h : texPsHeader ∈ formats) : fullFilenames filename formats = [filename] :=
  (names_spec filename formats).1 ⟨texPsHeader, h, [], by decide, filename, by simp⟩

/-! ## The order of the locators -/

/-- What a locator provides for a request: an exception, nothing, or a file. -/
def serves (w : World) (i : ℕ) (filename : Str) (formats : List Format) (m : Method) : Except Err (Option Bytes) :=
  match openers w i filename formats m with
  | (_, .error e) => .error e
  | (m', .ok os) =>
    .ok (os.findSome? fun o =>
      match o with
      | .file p => w.files p
      | .data b => some b
      | .tool p => w.files p
      | .cached _ n => (m'.pathCache.lookup n).bind w.files)

/-- The openers of a locator refer to this locator only. -/
theorem openers_own {w : World} {i : ℕ} {fn : Str} {fs : List Format} {m m' : Method} {os : List Opener}
    (h : openers w i fn fs m = (m', .ok os)) : ∀ j n, Opener.cached j n ∈ os → j = i := by
  have hint : ∀ l j n, Opener.cached j n ∉ internalLoop w l := by
    intro l j n
    induction l with
    | nil => simp [internalLoop]
    | cons a l ih =>
      rw [internalLoop]
      split
      · simp
      · exact ih
  have htool : ∀ l j n, Opener.cached j n ∉ toolLoop w fn l := by
    intro l j n
    induction l with
    | nil => simp [toolLoop]
    | cons a l ih =>
      rw [toolLoop]
      split
      · simp
      · exact ih
      · simp
  intro j n hj
  cases m with
  | localDir =>
    simp only [openers, Prod.mk.injEq, Except.ok.injEq] at h
    rw [← h.2, localOpeners] at hj
    simp at hj
  | internal =>
    simp only [openers, Prod.mk.injEq, Except.ok.injEq] at h
    rw [← h.2] at hj
    exact absurd hj (hint _ _ _)
  | tool =>
    simp only [openers, Prod.mk.injEq, Except.ok.injEq] at h
    rw [← h.2] at hj
    exact absurd hj (htool _ _ _)
  | recursivedir dirs cache =>
    simp only [openers] at h
    split at h
    · simp only [Prod.mk.injEq, Except.ok.injEq] at h
      rw [← h.2] at hj
      simp at hj
      exact hj.1
    · split at h
      · simp at h
      · simp only [Prod.mk.injEq, Except.ok.injEq] at h
        rw [← h.2] at hj
        simp at hj
      · simp only [Prod.mk.injEq, Except.ok.injEq] at h
        rw [← h.2] at hj
        simp at hj
        exact hj.1
  | lsr lists cache =>
    simp only [openers] at h
    split at h
    · simp at h
    · split at h
      · simp only [Prod.mk.injEq, Except.ok.injEq] at h
        rw [← h.2] at hj
        simp at hj
        exact hj.1
      · simp only [Prod.mk.injEq, Except.ok.injEq] at h
        rw [← h.2] at hj
        simp at hj

theorem tryOpeners_spec (w : World) (ms : List Method) (i : ℕ) (m' : Method) (hm : ms[i]? = some m') (os : List Opener)
    (ho : ∀ j n, Opener.cached j n ∈ os → j = i) :
    (tryOpeners w ms os).map (·.2) = os.findSome? fun o =>
      match o with
      | .file p => w.files p
      | .data b => some b
      | .tool p => w.files p
      | .cached _ n => (m'.pathCache.lookup n).bind w.files := by
  induction os with
  | nil => rfl
  | cons o os ih =>
    have ih := ih fun j n h => ho j n (List.mem_cons_of_mem _ h)
    rw [tryOpeners, List.findSome?_cons]
    cases o with
    | file p => simp only [call]; cases w.files p <;> simp [ih]
    | data b => simp [call]
    | tool p => simp only [call]; cases w.files p <;> simp [ih]
    | cached j n =>
      have hj := ho j n List.mem_cons_self
      simp only [call, hj, hm, Option.bind_some]
      cases (m'.pathCache.lookup n).bind w.files
      · exact ih
      · rfl

/-- The answer of the first locator that does not answer "nothing". -/
def firstAnswer : List (Except Err (Option Bytes)) → Result
  | [] => .ioError
  | .error e :: _ => .raised e
  | .ok (some c) :: _ => .file c
  | .ok none :: rest => firstAnswer rest

theorem search_spec (w : World) (fn : Str) (fs : List Format) (ms : List Method) :
    ∀ pre, (match (search w fn fs pre ms).2 with
      | .found _ c => Result.file c
      | .notFound => .ioError
      | .raised e => .raised e) = firstAnswer ((ms.zipIdx pre.length).map fun p => serves w p.2 fn fs p.1) := by
  induction ms with
  | nil => intro pre; rfl
  | cons m ms ih =>
    intro pre
    rw [search, List.zipIdx_cons, List.map_cons]
    rcases e : openers w pre.length fn fs m with ⟨m', r⟩
    cases r with
    | error e' =>
      simp only [serves, e, firstAnswer]
    | ok os =>
      have ho := openers_own e
      have := tryOpeners_spec w (pre ++ m' :: ms) pre.length m' (by simp) os ho
      simp only [serves, e]
      rw [← this]
      cases tryOpeners w (pre ++ m' :: ms) os with
      | some oc => simp [firstAnswer]
      | none =>
        simp only [Option.map_none, firstAnswer]
        have := ih (pre ++ [m'])
        rw [List.length_append] at this
        exact this

/-- **C55 (order of the locators)** A request not yet in the cache is answered by the first locator, in the configured order, that provides a file (or raises an exception); if none does an `IOError` is
raised. -/
theorem open_first (w : World) (filename : Str) (formats : List Format) (st : State)
    (h : st.lookup (filename, formats.map (·.name)) = none) :
    (openFile w filename formats st).2 = firstAnswer (st.methods.zipIdx.map fun p => serves w p.2 filename formats p.1) := by
  have := search_spec w filename formats st.methods []
  simp only [List.length_nil] at this
  rw [← this, openFile]
  simp only [h]
  rcases search w filename formats [] st.methods with ⟨ms, r⟩
  cases r <;> rfl

theorem firstAnswer_file {l : List (Except Err (Option Bytes))} {c : Bytes} (h : firstAnswer l = .file c) :
    ∃ a b, l = a ++ .ok (some c) :: b ∧ ∀ x ∈ a, x = .ok none := by
  induction l with
  | nil => simp [firstAnswer] at h
  | cons x l ih =>
    match x, h with
    | .error e, h => simp [firstAnswer] at h
    | .ok (some c'), h =>
      simp [firstAnswer] at h
      exact ⟨[], l, by simp [h], by simp⟩
    | .ok none, h =>
      obtain ⟨a, b, h1, h2⟩ := ih h
      refine ⟨.ok none :: a, b, by simp [h1], ?_⟩
      intro x hx
      rcases List.mem_cons.mp hx with rfl | hx
      · rfl
      · exact h2 x hx

/-- **C55 (found file)** The file returned is that of one of the locators, and all the locators before it have nothing to offer. -/
theorem open_found (w : World) (filename : Str) (formats : List Format) (st : State) (c : Bytes)
    (h : st.lookup (filename, formats.map (·.name)) = none) (hc : (openFile w filename formats st).2 = .file c) :
    ∃ k m, st.methods[k]? = some m ∧ serves w k filename formats m = .ok (some c) ∧
      ∀ j < k, ∀ m', st.methods[j]? = some m' → serves w j filename formats m' = .ok none := by
  rw [open_first w filename formats st h] at hc
  obtain ⟨a, b, h1, h2⟩ := firstAnswer_file hc
  have hget : ∀ j, (st.methods.zipIdx.map fun p => serves w p.2 filename formats p.1)[j]? =
      st.methods[j]?.map fun m => serves w j filename formats m := by
    intro j
    simp [List.getElem?_map, List.getElem?_zipIdx]
    rfl
  have hk := hget a.length
  rw [h1] at hk
  simp at hk
  obtain ⟨m, hm, hs⟩ : ∃ m, st.methods[a.length]? = some m ∧ serves w a.length filename formats m = .ok (some c) := by
    cases e : st.methods[a.length]? with
    | none => rw [e] at hk; simp at hk
    | some m => rw [e] at hk; simp at hk; exact ⟨m, rfl, hk⟩
  refine ⟨a.length, m, hm, hs, ?_⟩
  intro j hj m' hm'
  have := hget j
  rw [h1, hm', List.getElem?_append_left hj, List.getElem?_eq_getElem hj] at this
  simp at this
  rw [← this]
  exact h2 _ (List.getElem_mem hj)

/-! ## The locators -/

/-- **C55 (internal data)** `internal` gives the data of the first name with (non-empty) data in the package, in the directory named like the extension. -/
theorem internal_serves (w : World) (i : ℕ) (filename : Str) (formats : List Format) :
    serves w i filename formats .internal =
      .ok ((fullFilenames filename formats).findSome? fun n => (w.pkg (dataPath n)).filter (· ≠ [])) := by
  unfold serves
  simp only [openers, Except.ok.injEq]
  induction fullFilenames filename formats with
  | nil => rfl
  | cons a l ih =>
    rw [internalLoop, List.findSome?_cons]
    rcases e : w.pkg (dataPath a) with _ | _ | ⟨b, bs⟩
    · exact ih
    · exact ih
    · rfl

/-- **C55 (kpsewhich)** `kpsewhich` gives the file at the location told for the first format with a non-empty answer. -/
theorem tool_serves (w : World) (i : ℕ) (filename : Str) (formats f1 f2 : List Format) (f : Format) (p : Str)
    (h : formats = f1 ++ f :: f2) (h1 : ∀ g ∈ f1, w.find g.name filename = some []) (h2 : w.find f.name filename = some p) (h3 : p ≠ []) :
    serves w i filename formats .tool = .ok (w.files p) := by
  unfold serves
  simp only [openers, Except.ok.injEq]
  subst h
  induction f1 with
  | nil =>
    rw [List.nil_append, toolLoop, h2]
    obtain ⟨c, cs, rfl⟩ := List.exists_cons_of_ne_nil h3
    cases hw : w.files (c :: cs) <;> simp [hw]
  | cons g f1 ih =>
    rw [List.cons_append, toolLoop, h1 g (by simp)]
    exact ih fun g hg => h1 g (List.mem_cons_of_mem _ hg)

/-- **C55 (kpsewhich fails)** Without any answer `kpsewhich` provides nothing. -/
theorem tool_nothing (w : World) (i : ℕ) (filename : Str) (formats : List Format)
    (h : ∀ g ∈ formats, w.find g.name filename = some [] ∨ w.find g.name filename = none) :
    serves w i filename formats .tool = .ok none := by
  unfold serves
  simp only [openers, Except.ok.injEq]
  induction formats with
  | nil => rfl
  | cons g f1 ih =>
    rw [toolLoop]
    rcases h g (by simp) with e | e
    · rw [e]
      exact ih fun g hg => h g (List.mem_cons_of_mem _ hg)
    · rw [e]; rfl

/-- **C55 (local files, what happens)** `local` only ever opens the last of the names. -/
theorem local_serves (w : World) (i : ℕ) (filename : Str) (formats : List Format) :
    serves w i filename formats .localDir = .ok ((fullFilenames filename formats).getLast?.bind w.files) := by
  unfold serves
  simp only [openers, Except.ok.injEq, localOpeners]
  generalize fullFilenames filename formats = l
  rcases List.eq_nil_or_concat l with rfl | ⟨l', x, rfl⟩
  · rfl
  · have key : ∀ l : List Str, ∀ x : Str, ((l.map fun _ => Opener.file x).findSome? fun o =>
        match o with
        | .file p => w.files p
        | .data b => some b
        | .tool p => w.files p
        | .cached _ n => ((Method.localDir).pathCache.lookup n).bind w.files) = if l = [] then none else w.files x := by
      intro l x
      induction l with
      | nil => rfl
      | cons a l ih =>
        rw [List.map_cons, List.findSome?_cons, ih]
        cases e : w.files x <;> simp [e]
    rw [key]
    simp [List.getLastD_eq_getLast?]

/-- **C55 (local files), partial.** The claim – the first of the names that exists in the current directory is opened – holds if there is only one name, as for every filename with a
known extension. -/
theorem local_serves_partial (w : World) (i : ℕ) (filename : Str) (formats : List Format) (n : Str) (h : fullFilenames filename formats = [n]) :
    serves w i filename formats .localDir = .ok ((fullFilenames filename formats).findSome? w.files) := by
  rw [local_serves, h]
  cases e : w.files n <;> simp [e]

/-- A world with the single local file `cmr10.pfa`. -/
def pfaOnly : World := ⟨fun p => if p = "cmr10.pfa".toList then some [1] else none, fun _ => none, fun _ _ => some []⟩

/-- **C55 (local files) fails in general.** With `cmr10.pfa` in the current directory a request for the Type 1 font `cmr10` does not find it, although `cmr10.pfa` is one of the names. -/
theorem local_wrong :
    (fullFilenames "cmr10".toList [type1]).findSome? pfaOnly.files = some [1] ∧
      (openFile pfaOnly "cmr10".toList [type1] ⟨[.localDir], []⟩).2 = .ioError := by
  constructor <;> decide +kernel

/-- Both variants present: the second one is opened. -/
theorem local_wrong_order :
    (openFile ⟨fun p => if p = "cmr10.pfa".toList then some [1] else if p = "cmr10.pfb".toList then some [2] else none, fun _ => none, fun _ _ => none⟩
      "cmr10".toList [type1] ⟨[.localDir], []⟩).2 = .file [2] := by
  decide +kernel

/-! ### `recursivedir` -/

/-- The file `item` is below the directory `d` (with contents `n`) at the path `p`. -/
inductive InTree : Str → Node → Str → Str → Prop where
  | here {d items item} : (item, Node.file) ∈ items → InTree d (.dir items) item (join d item)
  | there {d items sub n item p} : (sub, n) ∈ items → InTree (join d sub) n item p → InTree d (.dir items) item p

/-- The file is below one of the directories. -/
def Below (roots : List (Str × Node)) (item p : Str) : Prop := ∃ r ∈ roots, InTree r.1 r.2 item p

/-- The state of the locator: every file is in the cache or below a directory still to be read, and nothing else is. -/
structure Good (roots dirs : List (Str × Node)) (cache : Cache) : Prop where
  covers : ∀ item p, Below roots item p → (cache.lookup item).isSome ∨ Below dirs item p
  sound : ∀ item p, cache.lookup item = some p → Below roots item p
  below : ∀ item p, Below dirs item p → Below roots item p

theorem Cache.lookup_cons (k v n : Str) (c : Cache) : Cache.lookup ((k, v) :: c) n = if k = n then some v else Cache.lookup c n := by
  unfold Cache.lookup
  rw [List.find?_cons]
  by_cases h : k = n <;> simp [h]

theorem rest_cons_file {dir it item p : Str} {rest : List (Str × Node)} :
    InTree dir (.dir ((it, .file) :: rest)) item p ↔ (item = it ∧ p = join dir it) ∨ InTree dir (.dir rest) item p := by
  constructor
  · intro h
    cases h with
    | here h =>
      rcases List.mem_cons.mp h with h | h
      · simp only [Prod.mk.injEq, and_true] at h
        subst h
        exact Or.inl ⟨rfl, rfl⟩
      · exact Or.inr (.here h)
    | there h h' =>
      rcases List.mem_cons.mp h with h | h
      · simp only [Prod.mk.injEq] at h
        rw [h.2] at h'
        cases h'
      · exact Or.inr (.there h h')
  · rintro (⟨rfl, rfl⟩ | h)
    · exact .here (by simp)
    · cases h with
      | here h => exact .here (List.mem_cons_of_mem _ h)
      | there h h' => exact .there (List.mem_cons_of_mem _ h) h'

theorem rest_cons_dir {dir it item p : Str} {its rest : List (Str × Node)} :
    InTree dir (.dir ((it, .dir its) :: rest)) item p ↔ InTree (join dir it) (.dir its) item p ∨ InTree dir (.dir rest) item p := by
  constructor
  · intro h
    cases h with
    | here h =>
      rcases List.mem_cons.mp h with h | h
      · simp at h
      · exact Or.inr (.here h)
    | there h h' =>
      rcases List.mem_cons.mp h with h | h
      · simp only [Prod.mk.injEq] at h
        rw [h.2, h.1] at h'
        exact Or.inl h'
      · exact Or.inr (.there h h')
  · rintro (h | h)
    · exact .there (by simp) h
    · cases h with
      | here h => exact .here (List.mem_cons_of_mem _ h)
      | there h h' => exact .there (List.mem_cons_of_mem _ h) h'

theorem below_cons {d : Str × Node} {dirs : List (Str × Node)} {item p : Str} :
    Below (d :: dirs) item p ↔ InTree d.1 d.2 item p ∨ Below dirs item p := by
  simp [Below]

theorem rest_nil {dir item p : Str} : ¬ InTree dir (.dir []) item p := by
  intro h
  cases h with
  | here h => simp at h
  | there h _ => simp at h

/-- The loop over one directory keeps the state good. -/
theorem listDir_good (roots : List (Str × Node)) (names : List Str) (dir : Str) (items : List (Str × Node)) : ∀ s : Scan,
    Good roots ((dir, .dir items) :: s.dirs) s.cache →
    (∀ f, s.found = some f → f ∈ names ∧ (s.cache.lookup f).isSome) →
    (s.found = none → ∀ n ∈ names, s.cache.lookup n = none) →
    Good roots (listDir names dir items s).dirs (listDir names dir items s).cache ∧
      (∀ f, (listDir names dir items s).found = some f → f ∈ names ∧ ((listDir names dir items s).cache.lookup f).isSome) ∧
      ((listDir names dir items s).found = none → ∀ n ∈ names, (listDir names dir items s).cache.lookup n = none) := by
  induction items with
  | nil =>
    intro s hg hf hn
    refine ⟨⟨?_, hg.sound, ?_⟩, hf, hn⟩
    · intro item p h
      rcases hg.covers item p h with h | h
      · exact Or.inl h
      · rcases below_cons.mp h with h | h
        · exact absurd h rest_nil
        · exact Or.inr h
    · intro item p h
      exact hg.below item p (below_cons.mpr (Or.inr h))
  | cons x items ih =>
    intro s hg hf hn
    obtain ⟨it, nd⟩ := x
    cases nd with
    | file =>
      rw [listDir]
      apply ih
      · refine ⟨?_, ?_, ?_⟩
        · intro item p h
          simp only [Cache.lookup_cons]
          rcases hg.covers item p h with h | h
          · left
            split_ifs
            · rfl
            · exact h
          · rcases below_cons.mp h with h | h
            · rcases rest_cons_file.mp h with ⟨rfl, rfl⟩ | h
              · left; simp
              · right; exact below_cons.mpr (Or.inl h)
            · right; exact below_cons.mpr (Or.inr h)
        · intro item p h
          simp only [Cache.lookup_cons] at h
          split_ifs at h with hc
          · cases h
            subst hc
            exact hg.below _ _ (below_cons.mpr (Or.inl (rest_cons_file.mpr (Or.inl ⟨rfl, rfl⟩))))
          · exact hg.sound item p h
        · intro item p h
          apply hg.below
          rcases below_cons.mp h with h | h
          · exact below_cons.mpr (Or.inl (rest_cons_file.mpr (Or.inr h)))
          · exact below_cons.mpr (Or.inr h)
      · intro f h
        simp only [Cache.lookup_cons] at h ⊢
        split_ifs at h with hc
        · cases h
          exact ⟨hc, by simp⟩
        · refine ⟨(hf f h).1, ?_⟩
          split_ifs
          · rfl
          · exact (hf f h).2
      · intro h n hnn
        simp only [Cache.lookup_cons] at h ⊢
        split_ifs at h with hc
        rw [if_neg (by rintro rfl; exact hc hnn)]
        exact hn h n hnn
    | dir its =>
      rw [listDir]
      refine ih { s with dirs := (join dir it, .dir its) :: s.dirs } ?_ hf hn
      refine ⟨?_, hg.sound, ?_⟩
      · intro item p h
        rcases hg.covers item p h with h | h
        · exact Or.inl h
        · right
          rcases below_cons.mp h with h | h
          · rcases rest_cons_dir.mp h with h | h
            · exact below_cons.mpr (Or.inr (below_cons.mpr (Or.inl h)))
            · exact below_cons.mpr (Or.inl h)
          · exact below_cons.mpr (Or.inr (below_cons.mpr (Or.inr h)))
      · intro item p h
        apply hg.below
        rcases below_cons.mp h with h | h
        · exact below_cons.mpr (Or.inl (rest_cons_dir.mpr (Or.inr h)))
        · rcases below_cons.mp h with h | h
          · exact below_cons.mpr (Or.inl (rest_cons_dir.mpr (Or.inl h)))
          · exact below_cons.mpr (Or.inr h)

theorem listDir_total (names : List Str) (dir : Str) (items : List (Str × Node)) : ∀ s : Scan,
    total (listDir names dir items s).dirs ≤ Node.size.sizes items + total s.dirs := by
  induction items with
  | nil => intro s; simp [listDir, Node.size.sizes]
  | cons x items ih =>
    intro s
    obtain ⟨it, nd⟩ := x
    cases nd with
    | file =>
      rw [listDir]
      have := ih { s with cache := (it, join dir it) :: s.cache, found := if it ∈ names then some it else s.found }
      simp only [Node.size.sizes, Node.size] at this ⊢
      omega
    | dir its =>
      rw [listDir]
      have := ih { s with dirs := (join dir it, .dir its) :: s.dirs }
      simp only [Node.size.sizes, total, List.map_cons, List.sum_cons] at this ⊢
      omega

/-- The whole loop. -/
theorem scanDirs_good (roots : List (Str × Node)) (names : List Str) : ∀ n dirs cache, total dirs < n → Good roots dirs cache →
    (∀ k ∈ names, cache.lookup k = none) →
    ∀ d' c' r, scanDirs names n dirs cache = (d', c', r) →
      (r = .ok none → Good roots d' c' ∧ d' = [] ∧ ∀ k ∈ names, c'.lookup k = none) ∧
      (∀ f, r = .ok (some f) → Good roots d' c' ∧ f ∈ names ∧ (c'.lookup f).isSome) ∧
      (∀ e, r = .error e → Good roots d' c') := by
  intro n
  induction n with
  | zero => intro dirs cache h; omega
  | succ n ih =>
    intro dirs cache ht hg hc d' c' r h
    match dirs with
    | [] =>
      rw [scanDirs] at h
      simp only [Prod.mk.injEq] at h
      obtain ⟨rfl, rfl, rfl⟩ := h
      exact ⟨fun _ => ⟨hg, rfl, hc⟩, by simp, by simp⟩
    | (d, .file) :: rest =>
      rw [scanDirs] at h
      simp only [Prod.mk.injEq] at h
      obtain ⟨rfl, rfl, rfl⟩ := h
      refine ⟨by simp, by simp, ?_⟩
      intro e _
      refine ⟨?_, hg.sound, ?_⟩
      · intro item p h
        rcases hg.covers item p h with h | h
        · exact Or.inl h
        · rcases below_cons.mp h with h | h
          · cases h
          · exact Or.inr h
      · intro item p h
        exact hg.below _ _ (below_cons.mpr (Or.inr h))
    | (d, .dir items) :: rest =>
      rw [scanDirs] at h
      have hg2 := listDir_good roots names d items ⟨rest, cache, none⟩ hg (by simp) (fun _ => hc)
      have ht2 := listDir_total names d items ⟨rest, cache, none⟩
      obtain ⟨g1, g2, g3⟩ := hg2

      cases e : (listDir names d items ⟨rest, cache, none⟩).found with
      | some f =>
        rw [e] at h
        simp only [Prod.mk.injEq] at h
        obtain ⟨rfl, rfl, rfl⟩ := h
        refine ⟨by simp, ?_, by simp⟩
        intro f' hf'
        cases hf'
        exact ⟨g1, g2 f e⟩
      | none =>
        rw [e] at h
        have hlt : total (listDir names d items ⟨rest, cache, none⟩).dirs < n := by
          simp only [total, List.map_cons, List.sum_cons, Node.size] at ht ht2 ⊢
          omega
        obtain ⟨i1, i2, i3⟩ := ih _ _ hlt g1 (g3 e) d' c' r h
        exact ⟨i1, i2, i3⟩

/-- The locator searches the directory trees `roots` and its state is consistent. -/
def Searches (roots : List (Str × Node)) (m : Method) : Prop := ∃ dirs cache, m = .recursivedir dirs cache ∧ Good roots dirs cache

/-- A new locator is consistent. -/
theorem searches_new (roots : List (Str × Node)) : Searches roots (.recursivedir roots []) :=
  ⟨roots, [], rfl, fun _ _ h => Or.inr h, by simp [Cache.lookup], fun _ _ h => h⟩

theorem firstCached_some {names : List Str} {cache : Cache} {n : Str} (h : firstCached names cache = some n) :
    n ∈ names ∧ (cache.lookup n).isSome :=
  ⟨List.mem_of_find?_eq_some h, by have := List.find?_some h; exact this⟩

theorem firstCached_none {names : List Str} {cache : Cache} (h : firstCached names cache = none) : ∀ k ∈ names, cache.lookup k = none := by
  intro k hk
  have := List.find?_eq_none.mp h k hk
  simpa using this

/-- **C55 (recursive directories)** Whatever has been requested before: what the locator opens is a file with one of the names somewhere below the configured directories, and it offers nothing only
if there is no such file; its state stays consistent. -/
theorem recursivedir_spec (w : World) (i : ℕ) (filename : Str) (formats : List Format) (roots : List (Str × Node)) (m : Method)
    (hm : Searches roots m) :
    Searches roots (openers w i filename formats m).1 ∧
      (∀ os, (openers w i filename formats m).2 = .ok os →
        (os = [] ∧ ∀ n ∈ fullFilenames filename formats, ∀ p, ¬ Below roots n p) ∨
        (∃ n ∈ fullFilenames filename formats, ∃ p, os = [.cached i n] ∧ Below roots n p ∧
          serves w i filename formats m = .ok (w.files p))) := by
  obtain ⟨dirs, cache, rfl, hg⟩ := hm
  cases e : firstCached (fullFilenames filename formats) cache with
  | some n =>
    simp only [openers, e]
    obtain ⟨h1, h2⟩ := firstCached_some e
    refine ⟨⟨dirs, cache, rfl, hg⟩, ?_⟩
    intro os hos
    cases hos
    obtain ⟨p, hp⟩ := Option.isSome_iff_exists.mp h2
    refine Or.inr ⟨n, h1, p, rfl, hg.sound n p hp, ?_⟩
    simp only [serves, openers, e, Method.pathCache]
    cases hw : w.files p <;> simp [hp, hw]
  | none =>
    rcases es : scanDirs (fullFilenames filename formats) (total dirs + 1) dirs cache with ⟨d', c', r⟩
    obtain ⟨h1, h2, h3⟩ := scanDirs_good roots _ _ dirs cache (Nat.lt_succ_self _) hg (firstCached_none e) d' c' r es
    match r, es, h1, h2, h3 with
    | .error er, es, _, _, h3 =>
      simp only [openers, e, es]
      exact ⟨⟨d', c', rfl, h3 er rfl⟩, by simp⟩
    | .ok none, es, h1, _, _ =>
      simp only [openers, e, es]
      obtain ⟨g, hd, hn⟩ := h1 rfl
      refine ⟨⟨d', c', rfl, g⟩, ?_⟩
      intro os hos
      cases hos
      refine Or.inl ⟨rfl, ?_⟩
      intro n hnn p hp
      rcases g.covers n p hp with h | h
      · rw [hn n hnn] at h
        simp at h
      · subst hd
        simp [Below] at h
    | .ok (some f), es, _, h2, _ =>
      simp only [openers, e, es]
      obtain ⟨g, hf, hl⟩ := h2 f rfl
      refine ⟨⟨d', c', rfl, g⟩, ?_⟩
      intro os hos
      cases hos
      obtain ⟨p, hp⟩ := Option.isSome_iff_exists.mp hl
      refine Or.inr ⟨f, hf, p, rfl, g.sound f p hp, ?_⟩
      simp only [serves, openers, e, es, Method.pathCache]
      cases hw : w.files p <;> simp [hp, hw]

/-- Two directories: `a` with `x.map`, `b` with `x.map` and `y.map`. -/
def twoDirs : List (Str × Node) :=
  [("a".toList, .dir [("x.map".toList, .file)]), ("b".toList, .dir [("x.map".toList, .file), ("y.map".toList, .file)])]

/-- Their contents. -/
def twoDirsWorld : World :=
  ⟨fun p => if p = "a/x.map".toList then some [1] else if p = "b/x.map".toList then some [2] else if p = "b/y.map".toList then some [3] else none,
    fun _ => none, fun _ _ => some []⟩

/-- `format.fontmap` (`config.py:52`). -/
def fontmap : Format := ⟨"map".toList, [".map".toList]⟩

example : Below twoDirs "y.map".toList "b/y.map".toList :=
  ⟨("b".toList, .dir [("x.map".toList, .file), ("y.map".toList, .file)]), by simp [twoDirs], .here (by simp)⟩

/-- What the loop over one directory does, in terms of the directories prepended. -/
theorem listDir_order (names : List Str) (dir : Str) (items : List (Str × Node)) : ∀ s : Scan,
    ∃ S, (listDir names dir items s).dirs = S ++ s.dirs ∧ (∀ x ∈ S, x.2 ≠ .file) ∧
      (∀ item p, Below S item p → InTree dir (.dir items) item p) ∧
      (∀ item p, item ∈ names → InTree dir (.dir items) item p → (listDir names dir items s).found ≠ none ∨ Below S item p) ∧
      (∀ f, (listDir names dir items s).found = some f →
        (s.found = some f ∧ (listDir names dir items s).cache.lookup f = s.cache.lookup f) ∨
        ((listDir names dir items s).cache.lookup f = some (join dir f) ∧ (f, .file) ∈ items)) ∧
      (s.found ≠ none → (listDir names dir items s).found ≠ none) := by
  induction items with
  | nil =>
    intro s
    refine ⟨[], rfl, by simp, by simp [Below], ?_, ?_, fun h => h⟩
    · intro item p _ h
      exact absurd h rest_nil
    · intro f hf
      exact Or.inl ⟨hf, rfl⟩
  | cons x items ih =>
    intro s
    obtain ⟨it, nd⟩ := x
    cases nd with
    | file =>
      rw [listDir]
      obtain ⟨S, h1, h2, h3, h4, h5, h6⟩ := ih
        { s with cache := (it, join dir it) :: s.cache, found := if it ∈ names then some it else s.found }
      refine ⟨S, h1, h2, ?_, ?_, ?_, ?_⟩
      · intro item p h
        exact rest_cons_file.mpr (Or.inr (h3 item p h))
      · intro item p hn h
        rcases rest_cons_file.mp h with ⟨rfl, rfl⟩ | h
        · left
          apply h6
          simp [hn]
        · exact h4 item p hn h
      · intro f hf
        rcases h5 f hf with ⟨h, h'⟩ | ⟨h, h'⟩
        · rw [Cache.lookup_cons] at h'
          by_cases hit : it = f
          · subst hit
            right
            rw [if_pos rfl] at h'
            exact ⟨h', by simp⟩
          · left
            rw [if_neg hit] at h'
            refine ⟨?_, h'⟩
            split_ifs at h with hc
            · cases h
              exact absurd rfl hit
            · exact h
        · exact Or.inr ⟨h, List.mem_cons_of_mem _ h'⟩
      · intro h
        apply h6
        simp only
        split_ifs
        · simp
        · exact h
    | dir its =>
      rw [listDir]
      obtain ⟨S, h1, h2, h3, h4, h5, h6⟩ := ih { s with dirs := (join dir it, .dir its) :: s.dirs }
      refine ⟨S ++ [(join dir it, .dir its)], by rw [h1]; simp, ?_, ?_, ?_, ?_, h6⟩
      · intro x hx
        rcases List.mem_append.mp hx with hx | hx
        · exact h2 x hx
        · rw [List.mem_singleton.mp hx]
          exact fun h => by cases h
      · rintro item p ⟨r, hr, h⟩
        rcases List.mem_append.mp hr with hr | hr
        · exact rest_cons_dir.mpr (Or.inr (h3 item p ⟨r, hr, h⟩))
        · rw [List.mem_singleton.mp hr] at h
          exact rest_cons_dir.mpr (Or.inl h)
      · intro item p hn h
        rcases rest_cons_dir.mp h with h | h
        · exact Or.inr ⟨_, List.mem_append_right _ (List.mem_singleton.mpr rfl), h⟩
        · rcases h4 item p hn h with h | ⟨r, hr, h⟩
          · exact Or.inl h
          · exact Or.inr ⟨r, List.mem_append_left _ hr, h⟩
      · intro f hf
        rcases h5 f hf with h | ⟨h, h'⟩
        · exact Or.inl h
        · exact Or.inr ⟨h, List.mem_cons_of_mem _ h'⟩

theorem below_append {A B : List (Str × Node)} {item p : Str} : Below (A ++ B) item p ↔ Below A item p ∨ Below B item p := by
  simp [Below, or_and_right, exists_or]

/-- Directories earlier in the list are searched first. -/
theorem scanDirs_order (names : List Str) : ∀ n A B cache, total (A ++ B) < n → (∀ k ∈ names, Cache.lookup cache k = none) →
    (∃ k ∈ names, ∃ p, Below A k p) → (∀ x ∈ A, x.2 ≠ Node.file) →
    ∃ d' c' f p, scanDirs names n (A ++ B) cache = (d', c', .ok (some f)) ∧ f ∈ names ∧ Cache.lookup c' f = some p ∧ Below A f p := by
  intro n
  induction n with
  | zero => intro A B cache h; omega
  | succ n ih =>
    intro A B cache ht hc hA hfile
    match A, hA with
    | [], ⟨k, _, p, h⟩ => simp [Below] at h
    | (d, .file) :: A, _ => exact absurd rfl (hfile (d, .file) (by simp))
    | (d, .dir items) :: A, ⟨k, hk, p, hp⟩ =>
      rw [List.cons_append, scanDirs]
      have ht2 := listDir_total names d items ⟨A ++ B, cache, none⟩
      obtain ⟨S, h1, h2, h3, h4, h5, -⟩ := listDir_order names d items ⟨A ++ B, cache, none⟩
      cases e : (listDir names d items ⟨A ++ B, cache, none⟩).found with
      | some f =>
        simp only [e]
        rcases h5 f e with ⟨h, -⟩ | ⟨h, h'⟩
        · simp at h
        · refine ⟨_, _, f, join d f, rfl, ?_, h, below_cons.mpr (Or.inl (.here h'))⟩
          have : ∀ items : List (Str × Node), ∀ s : Scan, (∀ f, s.found = some f → f ∈ names) →
              ∀ f, (listDir names d items s).found = some f → f ∈ names := by
            intro items
            induction items with
            | nil => intro s hs; exact hs
            | cons x items ih =>
              intro s hs
              obtain ⟨it, nd⟩ := x
              cases nd with
              | file =>
                rw [listDir]
                apply ih
                intro f hf
                simp only at hf
                split_ifs at hf with hi
                · cases hf; exact hi
                · exact hs f hf
              | dir its =>
                rw [listDir]
                exact ih _ hs
          exact this items ⟨A ++ B, cache, none⟩ (by simp) f e
      | none =>
        simp only [e]
        have hlt : total (listDir names d items ⟨A ++ B, cache, none⟩).dirs < n := by
          simp only [total, List.cons_append, List.map_cons, List.sum_cons, Node.size] at ht ht2 ⊢
          omega
        have hcache : ∀ k ∈ names, (listDir names d items ⟨A ++ B, cache, none⟩).cache.lookup k = none := by
          have : ∀ items : List (Str × Node), ∀ s : Scan, (∀ k ∈ names, s.cache.lookup k = none) →
              (listDir names d items s).found = none → ∀ k ∈ names, (listDir names d items s).cache.lookup k = none := by
            intro items
            induction items with
            | nil => intro s hs _; exact hs
            | cons x items ih =>
              intro s hs hf
              obtain ⟨it, nd⟩ := x
              cases nd with
              | file =>
                rw [listDir] at hf ⊢
                refine ih _ ?_ hf
                intro k hk
                by_cases hi : it ∈ names
                · exfalso
                  obtain ⟨-, -, -, -, -, -, h6⟩ := listDir_order names d items
                    { s with cache := (it, join d it) :: s.cache, found := if it ∈ names then some it else s.found }
                  exact h6 (by simp [hi]) hf
                · rw [Cache.lookup_cons, if_neg (by rintro rfl; exact hi hk)]
                  exact hs k hk
              | dir its =>
                rw [listDir] at hf ⊢
                exact ih _ hs hf
          exact this items ⟨A ++ B, cache, none⟩ hc e
        rw [h1, ← List.append_assoc] at hlt ⊢
        have hex : ∃ k ∈ names, ∃ p, Below (S ++ A) k p := by
          refine ⟨k, hk, p, ?_⟩
          rw [below_append]
          rcases below_cons.mp hp with h | h
          · rcases h4 k p hk h with h | h
            · exact absurd e h
            · exact Or.inl h
          · exact Or.inr h
        obtain ⟨d', c', f, q, g1, g2, g3, g4⟩ := ih (S ++ A) B _ hlt hcache hex (by
          intro x hx
          rcases List.mem_append.mp hx with hx | hx
          · exact h2 x hx
          · exact hfile x (List.mem_cons_of_mem _ hx))
        refine ⟨d', c', f, q, g1, g2, g3, ?_⟩
        rcases below_append.mp g4 with h | h
        · exact below_cons.mpr (Or.inl (h3 _ _ h))
        · exact below_cons.mpr (Or.inr h)

/-- **C55 (order of the directories)** A new locator takes a file of the first of the configured directories that contains one of the names at any depth. -/
theorem recursivedir_order (w : World) (i : ℕ) (filename : Str) (formats : List Format) (A B : List (Str × Node)) (r : Str × Node)
    (hA : ∀ n ∈ fullFilenames filename formats, ∀ p, ¬ Below A n p) (hr : ∃ n ∈ fullFilenames filename formats, ∃ p, InTree r.1 r.2 n p)
    (hfile : ∀ x ∈ A, x.2 ≠ .file) :
    ∃ n ∈ fullFilenames filename formats, ∃ p, InTree r.1 r.2 n p ∧
      serves w i filename formats (.recursivedir (A ++ r :: B) []) = .ok (w.files p) := by
  obtain ⟨n, hn, p, hp⟩ := hr
  have e : firstCached (fullFilenames filename formats) [] = none := by
    rw [firstCached, List.find?_eq_none]
    simp [Cache.lookup]
  obtain ⟨d', c', f, q, g1, g2, g3, g4⟩ := scanDirs_order (fullFilenames filename formats) (total (A ++ r :: B) + 1) (A ++ [r]) B []
    (by simp) (by simp [Cache.lookup]) ⟨n, hn, p, below_append.mpr (Or.inr ⟨r, by simp, hp⟩)⟩ (by
      intro x hx
      rcases List.mem_append.mp hx with hx | hx
      · exact hfile x hx
      · rw [List.mem_singleton.mp hx]
        intro h
        rw [h] at hp
        cases hp)
  rw [List.append_assoc, List.singleton_append] at g1
  refine ⟨f, g2, q, ?_, ?_⟩
  · rcases below_append.mp g4 with h | h
    · exact absurd h (hA f g2 q)
    · obtain ⟨x, hx, h⟩ := h
      rw [List.mem_singleton.mp hx] at h
      exact h
  · simp only [serves, openers, e, g1, Method.pathCache]
    cases hw : w.files q <;> simp [g3, hw]

example : serves twoDirsWorld 0 "x".toList [fontmap] (.recursivedir twoDirs []) = .ok (some [1]) := by decide +kernel

/-- **C55 (same request, another file)** A repeated request can give another file although the file system did not change: `x.map` is first found in the directory `a`; a request for
`y.map` reads the directory `b` and overwrites the remembered location; then `x.map` is `b/x.map`. -/
theorem repeated_request_differs :
    let r1 := openFile twoDirsWorld "x".toList [fontmap] ⟨[.recursivedir twoDirs []], []⟩
    let r2 := openFile twoDirsWorld "y".toList [fontmap] r1.1
    let r3 := openFile twoDirsWorld "x".toList [fontmap] r2.1
    r1.2 = .file [1] ∧ r2.2 = .file [3] ∧ r3.2 = .file [2] := by
  decide +kernel

/-! ### `ls-R` files -/

/-- Reading the lines in two parts. -/
theorem lsrLines_append (base : Str) (a b : List Str) : ∀ first dir cache,
    ∀ d' c', lsrLines base (a ++ b) first dir cache = .ok (d', c') →
      ∃ first' d1 c1, lsrLines base a first dir cache = .ok (d1, c1) ∧ lsrLines base b first' d1 c1 = .ok (d', c') ∧
        (first = false → first' = false) := by
  induction a with
  | nil => intro first dir cache d' c' h; exact ⟨first, dir, cache, rfl, h, fun h => h⟩
  | cons l a ih =>
    intro first dir cache d' c' h
    rw [List.cons_append, lsrLines.eq_def] at h
    rw [lsrLines.eq_def]
    simp only at h ⊢
    split_ifs at h ⊢ with h1 h2 h3
    · exact ih _ _ _ _ _ h
    · obtain ⟨f', d1, c1, e1, e2, e3⟩ := ih _ _ _ _ _ h
      exact ⟨f', d1, c1, e1, e2, fun _ => e3 rfl⟩
    · cases dir with
      | none => simp at h
      | some d =>
        simp only at h ⊢
        obtain ⟨f', d1, c1, e1, e2, e3⟩ := ih _ _ _ _ _ h
        exact ⟨f', d1, c1, e1, e2, fun _ => e3 rfl⟩
    · obtain ⟨f', d1, c1, e1, e2, e3⟩ := ih _ _ _ _ _ h
      exact ⟨f', d1, c1, e1, e2, fun _ => e3 rfl⟩

/-- Known names stay at their place, other names come from the lines. -/
theorem lsrLines_keep (base : Str) (a : List Str) : ∀ first dir cache d' c', lsrLines base a first dir cache = .ok (d', c') →
    (∀ n p, cache.lookup n = some p → c'.lookup n = some p) ∧
      (∀ n, n ∉ a.map rstrip → c'.lookup n = cache.lookup n) ∧
      ((∀ l ∈ a, (rstrip l).getLast? ≠ some ':') → d' = dir) := by
  induction a with
  | nil =>
    intro first dir cache d' c' h
    rw [lsrLines] at h
    simp only [Except.ok.injEq, Prod.mk.injEq] at h
    obtain ⟨rfl, rfl⟩ := h
    exact ⟨fun _ _ h => h, fun _ _ => rfl, fun _ => rfl⟩
  | cons l a ih =>
    intro first dir cache d' c' h
    rw [lsrLines.eq_def] at h
    simp only at h
    split_ifs at h with h1 h2 h3
    · obtain ⟨i1, i2, i3⟩ := ih _ _ _ _ _ h
      exact ⟨i1, fun n hn => i2 n (fun e => hn (by rw [List.map_cons]; exact List.mem_cons_of_mem _ e)),
        fun hl => i3 fun l hl' => hl l (List.mem_cons_of_mem _ hl')⟩
    · obtain ⟨i1, i2, i3⟩ := ih _ _ _ _ _ h
      exact ⟨i1, fun n hn => i2 n (fun e => hn (by rw [List.map_cons]; exact List.mem_cons_of_mem _ e)),
        fun hl => absurd h2 (hl l (by simp))⟩
    · cases dir with
      | none => simp at h
      | some d =>
        simp only at h
        obtain ⟨i1, i2, i3⟩ := ih _ _ _ _ _ h
        refine ⟨?_, ?_, fun hl => i3 fun l hl' => hl l (List.mem_cons_of_mem _ hl')⟩
        · intro n p hp
          apply i1
          rw [Cache.lookup_cons, if_neg]
          · exact hp
          · rintro rfl
            rw [hp] at h3
            simp at h3
        · intro n hn
          rw [List.map_cons, List.mem_cons, not_or] at hn
          rw [i2 n hn.2, Cache.lookup_cons, if_neg (Ne.symm hn.1)]
    · obtain ⟨i1, i2, i3⟩ := ih _ _ _ _ _ h
      exact ⟨i1, fun n hn => i2 n (fun e => hn (by rw [List.map_cons]; exact List.mem_cons_of_mem _ e)),
        fun hl => i3 fun l hl' => hl l (List.mem_cons_of_mem _ hl')⟩

/-- **C55 (ls-R)** The name of a file is looked up in the section of the `ls-R` file where it is listed first: if `d:` is the last section line before the first line with this name, the path is
`base/d/name`. -/
theorem lsr_entry (base : Str) (pre mid post : List Str) (header line : Str) (d n : Str) (dir : Option Str) (cache : Cache) (d' : Option Str) (c' : Cache)
    (h : lsrLines base (pre ++ header :: mid ++ line :: post) true dir cache = .ok (d', c'))
    (hh : rstrip header = d ++ [':']) (hp : d.head? ≠ some '%') (hl : rstrip line = n) (hn : n ≠ []) (hc : n.getLast? ≠ some ':')
    (hmid : ∀ l ∈ mid, (rstrip l).getLast? ≠ some ':')
    (hnew : n ∉ (pre ++ header :: mid).map rstrip) (hcache : cache.lookup n = none) :
    c'.lookup n = some (join (join base d) n) := by
  rw [List.append_assoc] at h
  obtain ⟨f1, d1, c1, e1, e2, -⟩ := lsrLines_append _ _ _ _ _ _ _ _ h
  rw [List.cons_append, lsrLines.eq_def] at e2
  simp only [hh] at e2
  have hcolon : (d ++ [':']).getLast? = some ':' := by simp
  have hpct : ¬ (f1 = true ∧ (d ++ [':']).head? = some '%') := by
    rintro ⟨-, h⟩
    cases d with
    | nil => simp at h
    | cons a d => exact hp (by simpa using h)
  rw [if_neg hpct, if_pos hcolon, List.dropLast_concat] at e2
  obtain ⟨f2, d2, c2, e3, e4, ef⟩ := lsrLines_append _ _ _ _ _ _ _ _ e2
  have hf2 := ef rfl
  subst hf2
  have k1 := lsrLines_keep _ _ _ _ _ _ _ e1
  have k2 := lsrLines_keep _ _ _ _ _ _ _ e3
  rw [List.map_append, List.mem_append, List.map_cons, List.mem_cons] at hnew
  push Not at hnew
  have hc2 : c2.lookup n = none := by
    rw [k2.2.1 n hnew.2.2, k1.2.1 n hnew.1, hcache]
  have hd2 := k2.2.2 hmid
  subst hd2
  rw [lsrLines.eq_def] at e4
  simp only [hl] at e4
  rw [if_neg (by simp), if_neg hc, if_pos ⟨hn, by rw [hc2]; rfl⟩] at e4
  have k3 := lsrLines_keep _ _ _ _ _ _ _ e4
  apply k3.1
  rw [Cache.lookup_cons, if_pos rfl]

/-- The lines of a small `ls-R` file. -/
def lsrSample : List Str := ["% ls-R\n".toList, "./fonts:\n".toList, "cmr10.pfb\n".toList, "\n".toList, "./tfm:\n".toList, "cmr10.tfm\n".toList]

example : (lsrLines "/tex".toList lsrSample true none []).toOption.bind (fun r => r.2.lookup "cmr10.tfm".toList) =
    some "/tex/./tfm/cmr10.tfm".toList := by decide +kernel

/-- **C55 (ls-R lookups)** A new `ls-R` locator offers the file at the path remembered for the first of the names that is listed at all. -/
theorem lsr_serves (w : World) (i : ℕ) (filename : Str) (formats : List Format) (lists : List (Str × Option (List Str))) (cache : Cache)
    (h : lsrFiles lists none [] = (cache, none)) :
    serves w i filename formats (.lsr lists []) =
      .ok ((((fullFilenames filename formats).find? fun n => (cache.lookup n).isSome).bind fun n => cache.lookup n).bind w.files) := by
  unfold serves
  simp only [openers, if_pos, h, firstCached]
  cases e : (fullFilenames filename formats).find? fun n => (cache.lookup n).isSome with
  | none => simp
  | some n =>
    simp only [Method.pathCache, Option.bind_some]
    cases hw : (cache.lookup n).bind w.files <;> simp [hw]

/-- **C55 (broken locator hides the others)** An `ls-R` file that does not exist makes every request fail, even if a later locator could provide the file. -/
theorem missing_lsr_hides (w : World) (filename : Str) (formats : List Format) (base : Str) (rest : List (Str × Option (List Str))) (ms : List Method) :
    (openFile w filename formats ⟨.lsr ((base, none) :: rest) [] :: ms, []⟩).2 = .raised .io := by
  rw [open_first _ _ _ _ rfl]
  simp [serves, openers, lsrFiles, firstAnswer]

/-! ## Repeated requests -/

/-- **C55 (cache)** After a successful request the same request is served again by the same opener, without asking the locators. -/
theorem open_again (w w' : World) (filename : Str) (formats : List Format) (st : State) (c : Bytes)
    (h : (openFile w filename formats st).2 = .file c) :
    ∃ o, (openFile w filename formats st).1.lookup (filename, formats.map (·.name)) = some o ∧
      call w (openFile w filename formats st).1.methods o = some (some c) ∧
      (openFile w' filename formats (openFile w filename formats st).1).1 = (openFile w filename formats st).1 := by
  have key : ∀ st' : State, ∀ o, st'.lookup (filename, formats.map (·.name)) = some o →
      (openFile w' filename formats st').1 = st' := by
    intro st' o ho
    rw [openFile]
    simp only [ho]
    rcases call w' st'.methods o with _ | _ | _ <;> rfl
  cases e : st.lookup (filename, formats.map (·.name)) with
  | some o =>
    have hs : (openFile w filename formats st).1 = st := by
      rw [openFile]; simp only [e]; rcases call w st.methods o with _ | _ | _ <;> rfl
    rw [hs]
    refine ⟨o, e, ?_, key st o e⟩
    rw [openFile] at h
    simp only [e] at h
    rcases hc : call w st.methods o with _ | _ | c'
    · simp [hc] at h
    · simp [hc] at h
    · simp [hc] at h
      rw [h]
  | none =>
    have try_call : ∀ ms os o c, tryOpeners w ms os = some (o, c) → call w ms o = some (some c) := by
      intro ms os
      induction os with
      | nil => intro o c h; simp [tryOpeners] at h
      | cons o' os ih =>
        intro o c h
        rw [tryOpeners] at h
        rcases hc : call w ms o' with _ | _ | c'
        · rw [hc] at h; exact ih o c h
        · rw [hc] at h; exact ih o c h
        · rw [hc] at h
          simp only [Option.some.injEq, Prod.mk.injEq] at h
          obtain ⟨rfl, rfl⟩ := h
          exact hc
    have hs : ∀ ms pre ms' o c, search w filename formats pre ms = (ms', .found o c) → call w ms' o = some (some c) := by
      intro ms
      induction ms with
      | nil => intro pre ms' o c h; simp [search] at h
      | cons m ms ih =>
        intro pre ms' o c h
        rw [search] at h
        rcases eo : openers w pre.length filename formats m with ⟨m', r⟩
        rw [eo] at h
        cases r with
        | error e => simp at h
        | ok os =>
          simp only at h
          rcases et : tryOpeners w (pre ++ m' :: ms) os with _ | ⟨o', c'⟩
          · rw [et] at h
            exact ih _ _ _ _ h
          · rw [et] at h
            simp only [Prod.mk.injEq, Search.found.injEq] at h
            obtain ⟨rfl, rfl, rfl⟩ := h
            exact try_call _ _ _ _ et
    rcases es : search w filename formats [] st.methods with ⟨ms, r⟩
    cases r with
    | found o c' =>
      have ho : openFile w filename formats st = ({ methods := ms, cache := ((filename, formats.map (·.name)), o) :: st.cache }, .file c') := by
        rw [openFile]; simp only [e, es]
      rw [ho] at h ⊢
      simp only [Result.file.injEq] at h
      subst h
      have hl : State.lookup { methods := ms, cache := ((filename, formats.map (·.name)), o) :: st.cache } (filename, formats.map (·.name)) = some o := by
        simp [State.lookup]
      exact ⟨o, hl, hs _ _ _ _ _ es, key _ o hl⟩
    | notFound =>
      have ho : (openFile w filename formats st).2 = .ioError := by
        rw [openFile]; simp only [e, es]
      rw [ho] at h; simp at h
    | raised er =>
      have ho : (openFile w filename formats st).2 = .raised er := by
        rw [openFile]; simp only [e, es]
      rw [ho] at h; simp at h

/-- **C55 (None instead of an error)** When a file found by `kpsewhich` is removed later, the repeated request returns `None` instead of raising `IOError`. -/
theorem removed_gives_none :
    let w : World := ⟨fun p => if p = "/t/a.tfm".toList then some [1] else none, fun _ => none, fun _ _ => some "/t/a.tfm".toList⟩
    let w' : World := ⟨fun _ => none, fun _ => none, fun _ _ => some []⟩
    let r := openFile w "a".toList [⟨"tfm".toList, [".tfm".toList]⟩] ⟨[.tool], []⟩
    r.2 = .file [1] ∧ (openFile w' "a".toList [⟨"tfm".toList, [".tfm".toList]⟩] r.1).2 = .nothing := by
  decide +kernel

/-- The default locators: a file of the package found after the current directory had none. -/
example : (openFile ⟨fun _ => none, fun p => if p = "data/pfb/cmr10.pfb".toList then some [7] else none, fun _ _ => some []⟩
    "cmr10".toList [type1] ⟨[.localDir, .internal, .tool], []⟩).2 = .file [7] := by decide +kernel

end PyX.Config
