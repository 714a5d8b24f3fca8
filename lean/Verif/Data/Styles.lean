import Verif.Text.AttrsProps
import Mathlib.Data.List.Sort
import Mathlib.Data.Char
import Mathlib.Order.Lex
import Mathlib.Data.List.Lex

/-!
# Titles and default styles of data: model of `graph/data.py:109-172, 394-509, 565-573, 632-651` and of their use in `graph.plot` (`graph/graph.py:196-227`)

Style lists are objects: `is` compares the objects, `!=` their items (styles, numbered).  A title is a string or `None`.
-/

set_option linter.unusedSectionVars false

namespace PyX.Data.Styles

open PyX.TextAttr (escapestring)

abbrev Str := List Char

/-- A list of styles: the object and its items. -/
@[ext] structure StyleList where
  obj : ℕ
  items : List ℕ
deriving DecidableEq

/-- What this module needs of data: `title` and `defaultstyles` (`data.py:87-89`). -/
structure Info where
  title : Option Str
  styles : Option StyleList
deriving DecidableEq

/-- An optional argument: `_notitle` or `_nodefaultstyles` (`data.py:150, 596`), or a value. -/
inductive Arg (α : Type) where
  | absent
  | given (v : α)

inductive Err where
  | value | type | runtime
deriving DecidableEq

/-- `sep.join(strings)`. -/
def joinWith (sep : Str) : List Str → Str
  | [] => []
  | [s] => s
  | s :: t :: l => s ++ sep ++ joinWith sep (t :: l)

/-- Escaping; characters which are not printable ASCII raise `ValueError`. -/
def escape (s : Str) : Except Err Str :=
  match escapestring s with
  | some r => .ok r
  | none => .error .value

/-- `"%s=%s" % (escapestring(key), escapestring(str(value)))` (`data.py:165-166`). -/
def columnText (c : Str × Str) : Except Err Str := do
  let k ← escape c.1
  let v ← escape c.2
  pure (k ++ ['='] ++ v)

/-- `data.title or "unknown source"` (`data.py:164`): the empty title counts as none. -/
def sourceName : Option Str → Str
  | some (c :: s) => c :: s
  | _ => ['u', 'n', 'k', 'n', 'o', 'w', 'n', ' ', 's', 'o', 'u', 'r', 'c', 'e']

/-- The title of `data` (`data.py:161-169`); `cols` are the keyword arguments with `str` of their values, in any order. -/
def dataTitle (arg : Arg (Option Str)) (org : Option Str) (cols : List (Str × Str)) : Except Err (Option Str) :=
  match arg with
  | .given t => .ok t
  | .absent => do
    let o ← escape (sourceName org)
    let cs ← (cols.insertionSort fun a b => a.1 ≤ b.1).mapM columnText
    pure (some (o ++ [':', ' '] ++ joinWith [',', ' '] cs))

/-- `data(org, title=arg, …)` (`data.py:161-172`). -/
def mkData (arg : Arg (Option Str)) (org : Info) (cols : List (Str × Str)) : Except Err Info := do
  let t ← dataTitle arg org.title cols
  pure ⟨t, org.styles⟩

/-- The title of `function` and `paramfunction` (`data.py:506-509, 570-573`). -/
def functionTitle (arg : Arg (Option Str)) (expression : Str) : Option Str :=
  match arg with
  | .given t => t
  | .absent => some expression

/-- The list of strings passed to `" + ".join`; `None` raises `TypeError`. -/
def allTitles : List Info → Except Err (List Str)
  | [] => .ok []
  | d :: l => match d.title with
    | none => .error .type
    | some t => (allTitles l).map (t :: ·)

/-- The title of `join` (`data.py:640-643`). -/
def joinTitle (arg : Arg (Option Str)) (ds : List Info) : Except Err (Option Str) :=
  match arg with
  | .given t => .ok t
  | .absent => (allTitles ds).map fun ts => some (joinWith [' ', '+', ' '] ts)

/-- The loop over `data[1:]` with `is not` (`data.py:646-649`). -/
def sameObject (s : Option StyleList) : List Info → Bool
  | [] => true
  | d :: l => if d.styles.map StyleList.obj = s.map StyleList.obj then sameObject s l else false

/-- The default styles of `join` of `d` and `ds` (`data.py:644-651`). -/
def joinStyles (arg : Arg (Option StyleList)) (d : Info) (ds : List Info) : Option StyleList :=
  match arg with
  | .given s => s
  | .absent => if sameObject d.styles ds then d.styles else none

/-- `join(d :: ds, title, defaultstyles)` (`data.py:632-651`), titles and styles only. -/
def mkJoin (title : Arg (Option Str)) (styles : Arg (Option StyleList)) (d : Info) (ds : List Info) : Except Err Info := do
  let t ← joinTitle title (d :: ds)
  pure ⟨t, joinStyles styles d ds⟩

/-- The loop which finds the styles of `plot` (`graph.py:210-215`). -/
def findStyles : Option StyleList → List Info → Except Err (Option StyleList)
  | s, [] => .ok s
  | none, d :: l => findStyles d.styles l
  | some s, d :: l => if some s.items ≠ d.styles.map StyleList.items then .error .runtime else findStyles (some s) l

/-- The plot items of `plot` (`graph.py:210-218`): title and styles of each, before the default providers are added; without styles the loop over them (`graph.py:76`) raises `TypeError`. -/
def plot (styles : Option StyleList) (ds : List Info) : Except Err (List (Option Str × StyleList)) := do
  let s ← match styles with
    | some s => .ok (some s)
    | none => findStyles none ds
  match s with
  | some s => pure (ds.map fun d => (d.title, s))
  | none => if ds = [] then pure [] else .error .type

/-! ## Titles -/

/-- **C177 (given titles).**  A given title, `None` too, is the title; the default styles of `data` are those of the original data. -/
theorem given_titles (t : Option Str) (org : Info) (cols : List (Str × Str)) (e : Str) (s : Arg (Option StyleList)) (ds : List Info) :
    mkData (.given t) org cols = .ok ⟨t, org.styles⟩ ∧ functionTitle (.given t) e = t ∧ mkJoin (.given t) s org ds = .ok ⟨t, joinStyles s org ds⟩ :=
  ⟨rfl, rfl, rfl⟩

instance : Std.Total fun a b : Str × Str => a.1 ≤ b.1 := ⟨fun a b => le_total a.1 b.1⟩
instance : IsTrans (Str × Str) fun a b => a.1 ≤ b.1 := ⟨fun _ _ _ h k => le_trans h k⟩

/-- **C177 (order).**  The title made for `data` does not depend on the order of the keyword arguments (whose names differ). -/
theorem title_order (org : Option Str) (cols cols' : List (Str × Str)) (hp : cols.Perm cols') (hd : (cols.map Prod.fst).Nodup) :
    dataTitle .absent org cols = dataTitle .absent org cols' := by
  have e : (cols.insertionSort fun a b => a.1 ≤ b.1) = cols'.insertionSort fun a b => a.1 ≤ b.1 := by
    refine List.Perm.eq_of_pairwise ?_ (List.pairwise_insertionSort _ _) (List.pairwise_insertionSort _ _)
      (((List.perm_insertionSort _ _).trans hp).trans (List.perm_insertionSort _ _).symm)
    intro a b ha hb h k
    have ha' : a ∈ cols := (List.mem_insertionSort _).1 ha
    have hb' : b ∈ cols := hp.mem_iff.2 ((List.mem_insertionSort _).1 hb)
    exact List.inj_on_of_nodup_map hd ha' hb' (le_antisymm h k)
  unfold dataTitle
  rw [e]

/-- Only printable ASCII characters. -/
def Printable (s : Str) : Prop := ∀ c ∈ s, 32 ≤ c.toNat ∧ c.toNat < 127

theorem escape_ok (s : Str) : (∃ r, escape s = .ok r) ↔ Printable s := by
  unfold escape
  rw [PyX.TextAttr.escape_spec]
  by_cases h : Printable s
  · have h' : s.all (fun c => decide (32 ≤ c.toNat ∧ c.toNat < 127)) = true := by
      rw [List.all_eq_true]
      exact fun c hc => decide_eq_true (h c hc)
    rw [if_pos h']
    simp [h]
  · have h' : ¬ s.all (fun c => decide (32 ≤ c.toNat ∧ c.toNat < 127)) = true := by
      intro k
      rw [List.all_eq_true] at k
      exact h fun c hc => of_decide_eq_true (k c hc)
    rw [if_neg h']
    simp [h]

theorem mapM_ok {α β : Type} (f : α → Except Err β) (l : List α) : (∃ r, l.mapM f = .ok r) ↔ ∀ x ∈ l, ∃ y, f x = .ok y := by
  induction l with
  | nil => simp [pure, Except.pure]
  | cons a l ih =>
    rw [List.mapM_cons]
    cases ha : f a with
    | error e => simp [ha, bind, Except.bind]
    | ok y =>
      cases hl : l.mapM f with
      | error e =>
        rw [hl] at ih
        simp only [bind, Except.bind, reduceCtorEq, exists_false, false_iff, List.mem_cons, forall_eq_or_imp] at ih ⊢
        exact fun h => ih h.2
      | ok r =>
        rw [hl] at ih
        simp only [bind, Except.bind, pure, Except.pure, Except.ok.injEq, exists_eq', true_iff, List.mem_cons, forall_eq_or_imp] at ih ⊢
        exact ⟨⟨y, ha⟩, ih⟩

theorem column_ok (c : Str × Str) : (∃ r, columnText c = .ok r) ↔ Printable c.1 ∧ Printable c.2 := by
  rw [← escape_ok, ← escape_ok]
  unfold columnText
  cases h : escape c.1 <;> cases k : escape c.2 <;> simp [bind, Except.bind, pure, Except.pure]

/-- **C177 (making a title).**  Without a title, `data` can be made exactly if the title of the original data, the column names and their values are printable ASCII. -/
theorem title_made_iff (org : Info) (cols : List (Str × Str)) :
    (∃ i, mkData .absent org cols = .ok i) ↔ Printable (sourceName org.title) ∧ ∀ c ∈ cols, Printable c.1 ∧ Printable c.2 := by
  have e : (∃ i, mkData .absent org cols = .ok i) ↔ (∃ r, escape (sourceName org.title) = .ok r) ∧
      ∃ r, (cols.insertionSort fun a b => a.1 ≤ b.1).mapM columnText = .ok r := by
    unfold mkData dataTitle
    cases escape (sourceName org.title) <;> cases (cols.insertionSort fun a b => a.1 ≤ b.1).mapM columnText <;>
      simp [bind, Except.bind, pure, Except.pure]
  rw [e, escape_ok, mapM_ok]
  simp only [List.mem_insertionSort, column_ok]

/-- A string with its special characters escaped. -/
def Escaped (s r : Str) : Prop := escapestring s = some r

/-- **C177 (the title made).**  For columns in alphabetical order the title is that of the original data, and the columns with what they are made of. -/
theorem title_value (org : Info) (cols : List (Str × Str)) (hs : cols.Pairwise fun a b => a.1 ≤ b.1) (o : Str) (ho : Escaped (sourceName org.title) o)
    (f : Str × Str → Str × Str) (hf : ∀ c ∈ cols, Escaped c.1 (f c).1 ∧ Escaped c.2 (f c).2) :
    mkData .absent org cols = .ok ⟨some (o ++ [':', ' '] ++ joinWith [',', ' '] (cols.map fun c => (f c).1 ++ ['='] ++ (f c).2)), org.styles⟩ := by
  have h1 : escape (sourceName org.title) = .ok o := by unfold escape; rw [ho]
  have h2 : cols.mapM columnText = .ok (cols.map fun c => (f c).1 ++ ['='] ++ (f c).2) := by
    clear hs
    induction cols with
    | nil => rfl
    | cons c l ih =>
      obtain ⟨a, b⟩ := hf c List.mem_cons_self
      have hc : columnText c = .ok ((f c).1 ++ ['='] ++ (f c).2) := by
        unfold columnText escape
        rw [a, b]; rfl
      rw [List.mapM_cons, hc, ih fun x hx => hf x (List.mem_cons_of_mem _ hx)]
      rfl
  unfold mkData dataTitle
  simp only [h1, List.Pairwise.insertionSort_eq hs, h2, bind, Except.bind, pure, Except.pure]

/-- The claim that data can be made of data fails for the file `ä`: the title cannot be made, and `ValueError` is raised. -/
theorem umlaut_fails (s : Option StyleList) (cols : List (Str × Str)) : mkData .absent ⟨some ['ä'], s⟩ cols = .error .value := by
  have h : escape (sourceName (some ['ä'])) = .error .value := by decide +kernel
  unfold mkData dataTitle
  simp only [h, bind, Except.bind]

theorem allTitles_ok (ds : List Info) (ts : List Str) : allTitles ds = .ok ts ↔ ds.map Info.title = ts.map some := by
  induction ds generalizing ts with
  | nil => cases ts <;> simp [allTitles]
  | cons d l ih =>
    unfold allTitles
    cases hd : d.title with
    | none => cases ts <;> simp [hd]
    | some t =>
      cases hl : allTitles l with
      | error e =>
        have := fun ts => (ih ts).2
        cases ts with
        | nil => simp [Except.map]
        | cons u us =>
          simp only [Except.map, reduceCtorEq, List.map_cons, hd, List.cons.injEq, false_iff, not_and]
          intro _ h
          have := this us h
          rw [hl] at this
          cases this
      | ok r =>
        have h1 := (ih r).1 hl
        cases ts with
        | nil => simp [Except.map]
        | cons u us =>
          simp only [Except.map, Except.ok.injEq, List.cons.injEq, List.map_cons, hd, Option.some.injEq, h1]
          constructor
          · rintro ⟨a, b⟩; exact ⟨a, by rw [b]⟩
          · rintro ⟨a, b⟩; exact ⟨a, List.map_injective_iff.2 (Option.some_injective _) b⟩

/-- **C177 (titles of joined data).**  Without a title, data are joined exactly if all of them have titles; then the title consists of them in order. -/
theorem join_title_iff (s : Arg (Option StyleList)) (d : Info) (ds : List Info) (i : Info) :
    mkJoin .absent s d ds = .ok i ↔ ∃ ts, (d :: ds).map Info.title = ts.map some ∧ i = ⟨some (joinWith [' ', '+', ' '] ts), joinStyles s d ds⟩ := by
  unfold mkJoin joinTitle
  cases h : allTitles (d :: ds) with
  | error e =>
    simp only [Except.map, bind, Except.bind, reduceCtorEq, false_iff, not_exists, not_and]
    intro ts h1
    rw [(allTitles_ok _ ts).2 h1] at h
    cases h
  | ok r =>
    have h1 := (allTitles_ok _ r).1 h
    simp only [Except.map, bind, Except.bind, pure, Except.pure, Except.ok.injEq]
    constructor
    · rintro rfl; exact ⟨r, h1, rfl⟩
    · rintro ⟨ts, h2, rfl⟩
      rw [List.map_injective_iff.2 (Option.some_injective _) (h1.symm.trans h2)]

/-- Data without a title (which are not in the key) cannot be joined without giving a title. -/
theorem join_untitled (s : Arg (Option StyleList)) (d : Info) (ds : List Info) (h : ∃ x ∈ d :: ds, x.title = none) : ∀ i, mkJoin .absent s d ds ≠ .ok i := by
  intro i hi
  obtain ⟨ts, h1, -⟩ := (join_title_iff s d ds i).1 hi
  obtain ⟨x, hx, hn⟩ := h
  have : x.title ∈ ts.map some := h1 ▸ List.mem_map_of_mem hx
  rw [hn] at this
  simp at this

/-! ## Default styles -/

theorem sameObject_iff (s : Option StyleList) (ds : List Info) : sameObject s ds = true ↔ ∀ d ∈ ds, d.styles.map StyleList.obj = s.map StyleList.obj := by
  induction ds with
  | nil => simp [sameObject]
  | cons d l ih =>
    unfold sameObject
    by_cases h : d.styles.map StyleList.obj = s.map StyleList.obj <;> simp [h, ih]

/-- **C177 (styles of joined data).**  Given default styles are taken; else they are those of the data if these are one and the same list, and `None` otherwise. -/
theorem join_styles (d : Info) (ds : List Info) :
    (∀ s, joinStyles (.given s) d ds = s) ∧
    ((∀ x ∈ ds, x.styles.map StyleList.obj = d.styles.map StyleList.obj) → joinStyles .absent d ds = d.styles) ∧
    ((∃ x ∈ ds, x.styles.map StyleList.obj ≠ d.styles.map StyleList.obj) → joinStyles .absent d ds = none) := by
  refine ⟨fun _ => rfl, fun h => ?_, fun ⟨x, hx, hn⟩ => ?_⟩
  · unfold joinStyles
    rw [if_pos ((sameObject_iff _ _).2 h)]
  · unfold joinStyles
    rw [if_neg fun h => hn ((sameObject_iff _ _).1 h x hx)]

theorem findStyles_some (s : StyleList) (ds : List Info) :
    findStyles (some s) ds = if ∀ d ∈ ds, d.styles.map StyleList.items = some s.items then .ok (some s) else .error .runtime := by
  induction ds with
  | nil => simp [findStyles]
  | cons d l ih =>
    unfold findStyles
    by_cases h : d.styles.map StyleList.items = some s.items
    · rw [if_neg (by rw [h]; simp), ih]
      exact if_congr (by rw [List.forall_mem_cons]; exact ⟨fun k => ⟨h, k⟩, And.right⟩) rfl rfl
    · rw [if_pos (fun k => h k.symm), if_neg (fun k => h (k d List.mem_cons_self))]

theorem findStyles_skip (l ds : List Info) (h : ∀ d ∈ l, d.styles = none) : findStyles none (l ++ ds) = findStyles none ds := by
  induction l with
  | nil => rfl
  | cons d l ih =>
    rw [List.cons_append]
    conv => lhs; unfold findStyles
    rw [h d List.mem_cons_self]
    exact ih fun x hx => h x (List.mem_cons_of_mem _ hx)

/-- **C177 (given styles).**  Given styles are used for all data. -/
theorem plot_given (s : StyleList) (ds : List Info) : plot (some s) ds = .ok (ds.map fun d => (d.title, s)) := rfl

/-- **C177 (default styles).**  Without styles, plotting works exactly if there are no data or, behind data without default styles, all data have lists with the same styles; the first list is used. -/
theorem plot_default_iff (ds : List Info) (r : List (Option Str × StyleList)) :
    plot none ds = .ok r ↔ (ds = [] ∧ r = []) ∨ ∃ l d ds' s, ds = l ++ d :: ds' ∧ (∀ x ∈ l, x.styles = none) ∧ d.styles = some s ∧
      (∀ x ∈ ds', x.styles.map StyleList.items = some s.items) ∧ r = ds.map fun x => (x.title, s) := by
  have key : ∀ l d ds' s, (∀ x ∈ l, Info.styles x = none) → Info.styles d = some s → findStyles none (l ++ d :: ds') =
      if ∀ x ∈ ds', x.styles.map StyleList.items = some s.items then .ok (some s) else .error .runtime := by
    intro l d ds' s hl hd
    rw [findStyles_skip l _ hl]
    unfold findStyles
    rw [hd, findStyles_some]
  constructor
  · intro h
    by_cases hall : ∀ x ∈ ds, x.styles = none
    · have e : findStyles none ds = .ok none := by
        have := findStyles_skip ds [] hall
        rw [List.append_nil] at this
        rw [this]; rfl
      unfold plot at h
      simp only [e, bind, Except.bind, pure, Except.pure] at h
      split at h
      · exact Or.inl ⟨by assumption, by cases h; rfl⟩
      · cases h
    · right
      obtain ⟨l, d, ds', hds, hl, hd⟩ : ∃ l d ds', ds = l ++ d :: ds' ∧ (∀ x ∈ l, x.styles = none) ∧ d.styles ≠ none := by
        clear h
        induction ds with
        | nil => exact absurd (by simp) hall
        | cons a t ih =>
          by_cases ha : a.styles = none
          · obtain ⟨l, d, ds', e, hl, hd⟩ := ih fun h => hall (by simpa [ha] using h)
            exact ⟨a :: l, d, ds', by rw [e]; rfl, by simpa [ha] using hl, hd⟩
          · exact ⟨[], a, t, rfl, by simp, ha⟩
      obtain ⟨s, hs⟩ := Option.ne_none_iff_exists'.1 hd
      refine ⟨l, d, ds', s, hds, hl, hs, ?_⟩
      unfold plot at h
      rw [hds] at h
      simp only [key l d ds' s hl hs] at h
      split at h
      · rename_i hh
        simp only [bind, Except.bind, pure, Except.pure, Except.ok.injEq] at h
        exact ⟨hh, by rw [hds]; exact h.symm⟩
      · simp [bind, Except.bind] at h
  · rintro (⟨rfl, rfl⟩ | ⟨l, d, ds', s, hds, hl, hs, hh, rfl⟩)
    · rfl
    · unfold plot
      have := key l d ds' s hl hs
      rw [if_pos hh, ← hds] at this
      simp only [this, bind, Except.bind, pure, Except.pure]

/-- **C177 (same styles).**  Data with equal default styles are plotted with these. -/
theorem plot_common (d : Info) (ds : List Info) (s : StyleList) (hd : d.styles = some s) (h : ∀ x ∈ ds, x.styles = some s) :
    plot none (d :: ds) = .ok ((d :: ds).map fun x => (x.title, s)) :=
  (plot_default_iff _ _).2 (Or.inr ⟨[], d, ds, s, rfl, by simp, hd, fun x hx => by rw [h x hx]; rfl, rfl⟩)

/-- **C177 (joined and plotted).**  Joined data can be plotted without styles exactly if all of them have the same list of default styles. -/
theorem join_plot_iff (t : Option Str) (d : Info) (ds : List Info) :
    (∃ i r, mkJoin (.given t) .absent d ds = .ok i ∧ plot none [i] = .ok r) ↔ ∃ o, ∀ x ∈ d :: ds, x.styles.map StyleList.obj = some o := by
  have e : ∀ i : Info, (∃ r, plot none [i] = .ok r) ↔ i.styles ≠ none := by
    intro i
    unfold plot
    cases h : i.styles <;> simp [findStyles, h, bind, Except.bind, pure, Except.pure]
  constructor
  · rintro ⟨i, r, h1, h2⟩
    have h3 := (e i).1 ⟨r, h2⟩
    cases (given_titles t d [] [] .absent ds).2.2.symm.trans h1
    simp only [joinStyles] at h3
    split at h3
    · rename_i hs
      obtain ⟨s, hs'⟩ := Option.ne_none_iff_exists'.1 h3
      refine ⟨s.obj, fun x hx => ?_⟩
      rcases List.mem_cons.1 hx with rfl | hx
      · rw [hs']; rfl
      · rw [(sameObject_iff _ _).1 hs x hx, hs']; rfl
    · exact absurd rfl h3
  · rintro ⟨o, h⟩
    have hd := h d List.mem_cons_self
    have hs : joinStyles .absent d ds = d.styles := (join_styles d ds).2.1 fun x hx => (h x (List.mem_cons_of_mem _ hx)).trans hd.symm
    have hn : d.styles ≠ none := by intro k; rw [k] at hd; cases hd
    obtain ⟨r, hr⟩ := (e ⟨t, d.styles⟩).2 hn
    exact ⟨⟨t, d.styles⟩, r, by rw [(given_titles t d [] [] .absent ds).2.2, hs], hr⟩

/-- The claim "data whose `defaultstyles` is `None` cannot be plotted without user provided styles" (`data.py:88-89`) fails: in front of data with default styles they are plotted with these; behind them `RuntimeError` is raised. -/
theorem order_of_data (a b : Option Str) (s : StyleList) :
    plot none [⟨a, none⟩, ⟨b, some s⟩] = .ok [(a, s), (b, s)] ∧ plot none [⟨b, some s⟩, ⟨a, none⟩] = .error .runtime ∧ plot none [⟨a, none⟩] = .error .type := by
  refine ⟨by simp [plot, findStyles, bind, Except.bind, pure, Except.pure], by simp [plot, findStyles, bind, Except.bind], by simp [plot, findStyles, bind, Except.bind]⟩

/-! ## Examples -/

/-- `defaultsymbols` and `defaultlines` (`data.py:105-106`). -/
def symbols : StyleList := ⟨0, [0]⟩
def lines : StyleList := ⟨1, [1]⟩

/-- Columns `y=2, x=1` of `a_b`: the title is sorted and escaped. -/
example : mkData .absent ⟨some ['a', '_', 'b'], some symbols⟩ [(['y'], ['2']), (['x'], ['1'])] =
    .ok ⟨some ['a', '\\', '_', 'b', ':', ' ', 'x', '=', '1', ',', ' ', 'y', '=', '2'], some symbols⟩ := by decide +kernel

example : mkJoin .absent .absent ⟨some ['a'], some symbols⟩ [⟨some ['b'], some lines⟩] = .ok ⟨some ['a', ' ', '+', ' ', 'b'], none⟩ := by decide +kernel
example : mkJoin .absent (.given (some lines)) ⟨some ['a'], some symbols⟩ [⟨some ['b'], some lines⟩] = .ok ⟨some ['a', ' ', '+', ' ', 'b'], some lines⟩ := by decide +kernel
example : plot none [⟨none, some symbols⟩, ⟨some ['b'], some lines⟩] = .error .runtime := by decide +kernel
example : ([(['y'], ['2']), (['x'], ['1'])] : List (Str × Str)).map Prod.fst |>.Nodup := by decide

end PyX.Data.Styles
