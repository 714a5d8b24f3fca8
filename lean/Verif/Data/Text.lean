import Mathlib.Data.List.Basic
import Mathlib.Tactic.Push

/-!
# Lines of data files (`pyx/graph/data.py:233-277`)

The characters for which `\s` matches (and that `str.split` and `str.strip` take for white space) are a parameter `sp`; a line is given without the line end, so that `.` matches
all its characters and `$` matches at its end only.  The patterns are the default patterns.  `float(...)` is a parameter `parse`.
-/

set_option linter.unusedSectionVars false

namespace PyX.Data

variable (sp : Char → Bool) {F : Type*}

/-- `str.strip()`. -/
def strip (l : List Char) : List Char := ((l.dropWhile sp).reverse.dropWhile sp).reverse

/-- `str.split()`: `cur` are the characters of the current word in reverse order. -/
def splitGo (cur : List Char) : List Char → List (List Char)
  | [] => if cur = [] then [] else [cur.reverse]
  | c :: cs => if sp c then (if cur = [] then splitGo [] cs else cur.reverse :: splitGo [] cs) else splitGo (c :: cur) cs

def split (l : List Char) : List (List Char) := splitGo sp [] l

/-- `\s+|$` after a quote. -/
def closes : List Char → Bool
  | [] => true
  | c :: _ => sp c

/-- `(.*?)\"(\s+|$)`: the group and the rest after the match. -/
def strEnd : List Char → Option (List Char × List Char)
  | [] => none
  | c :: cs => if c = '"' ∧ closes sp cs = true then some ([], cs.dropWhile sp) else (strEnd cs).map fun p => (c :: p.1, p.2)

/-- `defaultstringpattern = \"(.*?)\"(\s+|$)` (`data.py:234`). -/
def matchString : List Char → Option (List Char × List Char)
  | [] => none
  | c :: cs => if c = '"' then strEnd sp cs else none

/-- `defaultcolumnpattern = (.*?)(\s+|$)` (`data.py:235`). -/
def matchColumn (l : List Char) : List Char × List Char :=
  (l.takeWhile (fun c => !sp c), (l.dropWhile (fun c => !sp c)).dropWhile sp)

/-- A field of a line: whether it is quoted and its text. -/
abbrev Field := Bool × List Char

/-- The loop over the patterns (`data.py:249-263`); the fuel is the length of the line (`slow_eq`). -/
def slow (fuel : ℕ) (l : List Char) : List Field :=
  match fuel, l with
  | 0, _ => []
  | _, [] => []
  | fuel + 1, l =>
    match matchString sp l with
    | some m => (true, m.1) :: slow fuel m.2
    | none => (false, (matchColumn sp l).1) :: slow fuel (matchColumn sp l).2

/-- The fields of a line (`data.py:237-277`). -/
def fields (l : List Char) : List Field :=
  if '"' ∈ l then slow sp l.length l else (split sp l).map fun w => (false, w)

/-- The values in data: missing, numbers, strings; the line number is a number. -/
inductive Value (F : Type*) where
  | none
  | num (x : F)
  | str (s : List Char)

/-- The conversion of a field: quoted fields stay strings, others become numbers if `float` accepts them. -/
def toValue (parse : List Char → Option F) (f : Field) : Value F :=
  if f.1 then .str f.2 else match parse f.2 with
    | some x => .num x
    | none => .str f.2

/-- `splitline` with `tofloat=1`. -/
def splitValues (parse : List Char → Option F) (l : List Char) : List (Value F) := (fields sp l).map (toValue parse)

/-- `splitline` with `tofloat=0`. -/
def splitNames (l : List Char) : List (List Char) := (fields sp l).map (·.2)

/-! ## Properties -/

theorem strEnd_rest (l g r : List Char) (h : strEnd sp l = some (g, r)) : r.length < l.length := by
  induction l generalizing g with
  | nil => simp [strEnd] at h
  | cons c cs ih =>
    unfold strEnd at h
    split at h
    · simp only [Option.some.injEq, Prod.mk.injEq] at h
      rw [← h.2]
      have := (List.dropWhile_sublist sp (l := cs)).length_le
      simp only [List.length_cons]; omega
    · simp only [Option.map_eq_some_iff, Prod.exists, Prod.mk.injEq] at h
      obtain ⟨a, b, h1, _, rfl⟩ := h
      have := ih a h1
      simp only [List.length_cons]; omega

theorem matchString_rest (l g r : List Char) (h : matchString sp l = some (g, r)) : r.length < l.length := by
  cases l with
  | nil => simp [matchString] at h
  | cons c cs =>
    simp only [matchString] at h
    by_cases hc : c = '"'
    · rw [if_pos hc] at h
      have := strEnd_rest sp cs g r h
      simp only [List.length_cons]; omega
    · rw [if_neg hc] at h
      simp at h

theorem matchColumn_rest (l : List Char) (h : l ≠ []) : (matchColumn sp l).2.length < l.length := by
  obtain ⟨c, cs, rfl⟩ := List.exists_cons_of_ne_nil h
  unfold matchColumn
  simp only
  by_cases hc : sp c = true
  · rw [List.dropWhile_cons_of_neg (by simp [hc]), List.dropWhile_cons_of_pos hc]
    have := (List.dropWhile_sublist sp (l := cs)).length_le
    simp only [List.length_cons]; omega
  · rw [List.dropWhile_cons_of_pos (by simp [hc])]
    have h1 := (List.dropWhile_sublist sp (l := cs.dropWhile fun c => !sp c)).length_le
    have h2 := (List.dropWhile_sublist (fun c => !sp c) (l := cs)).length_le
    simp only [List.length_cons]; omega

/-- The fuel is sufficient. -/
theorem slow_fuel (n m : ℕ) (l : List Char) (hn : l.length ≤ n) (hm : l.length ≤ m) : slow sp n l = slow sp m l := by
  induction n generalizing m l with
  | zero =>
    have : l = [] := List.length_eq_zero_iff.mp (by omega)
    subst this
    cases m <;> simp [slow]
  | succ n ih =>
    cases l with
    | nil => cases m <;> simp [slow]
    | cons c cs =>
      cases m with
      | zero => simp at hm
      | succ m =>
        have h0 : (c :: cs) ≠ [] := by simp
        simp only [slow]
        cases hs : matchString sp (c :: cs) with
        | some mm =>
          obtain ⟨g, r⟩ := mm
          have := matchString_rest sp _ g r hs
          simp only
          rw [ih m r (by omega) (by omega)]
        | none =>
          have := matchColumn_rest sp _ h0
          simp only
          rw [ih m _ (by omega) (by omega)]

/-- The loop: a string if the string pattern matches, else a column. -/
theorem slow_eq (l : List Char) (h : l ≠ []) : slow sp l.length l = match matchString sp l with
    | some m => (true, m.1) :: slow sp m.2.length m.2
    | none => (false, (matchColumn sp l).1) :: slow sp (matchColumn sp l).2.length (matchColumn sp l).2 := by
  obtain ⟨c, cs, rfl⟩ := List.exists_cons_of_ne_nil h
  have hl : (c :: cs).length = cs.length + 1 := rfl
  rw [hl]
  simp only [slow]
  cases hs : matchString sp (c :: cs) with
  | some mm =>
    obtain ⟨g, r⟩ := mm
    have := matchString_rest sp _ g r hs
    simp only
    rw [slow_fuel sp cs.length r.length r (by simp at this; omega) (Nat.le_refl _)]
  | none =>
    have := matchColumn_rest sp _ h
    simp only
    rw [slow_fuel sp cs.length _ (matchColumn sp (c :: cs)).2 (by simp at this; omega) (Nat.le_refl _)]

theorem splitGo_word (cur w l : List Char) (hw : ∀ c ∈ w, sp c = false) : splitGo sp cur (w ++ l) = splitGo sp (w.reverse ++ cur) l := by
  induction w generalizing cur with
  | nil => simp
  | cons c w ih =>
    simp only [List.cons_append, splitGo, hw c List.mem_cons_self]
    rw [if_neg (by simp), ih _ (fun c hc => hw c (List.mem_cons_of_mem _ hc))]
    simp

theorem split_spaces (l : List Char) : split sp l = split sp (l.dropWhile sp) := by
  unfold split
  induction l with
  | nil => simp
  | cons c cs ih =>
    by_cases h : sp c = true
    · simp only [splitGo, h, List.dropWhile_cons_of_pos, if_true]
      exact ih
    · rw [List.dropWhile_cons_of_neg h]

/-- One word. -/
theorem split_step (l : List Char) (h : ∀ c cs, l = c :: cs → sp c = false) (h0 : l ≠ []) :
    split sp l = (matchColumn sp l).1 :: split sp (matchColumn sp l).2 := by
  unfold matchColumn
  simp only
  rw [← split_spaces]
  conv_lhs => rw [← List.takeWhile_append_dropWhile (p := fun c => !sp c) (l := l)]
  unfold split
  rw [splitGo_word sp]
  · have hne : l.takeWhile (fun c => !sp c) ≠ [] := by
      obtain ⟨c, cs, rfl⟩ := List.exists_cons_of_ne_nil h0
      rw [List.takeWhile_cons_of_pos (by simp [h c cs rfl])]
      simp
    cases hd : l.dropWhile (fun c => !sp c) with
    | nil => simp [splitGo, hne]
    | cons c cs =>
      have hc : sp c = true := by
        have := List.head_dropWhile_not (p := fun c => !sp c) (l := l) (by rw [hd]; simp)
        simp only [hd, List.head_cons] at this
        simpa using this
      simp only [splitGo, hc, if_true, List.append_nil, List.reverse_eq_nil_iff, hne, if_false, List.reverse_reverse]
  · intro c hc
    have := List.all_takeWhile (p := fun c => !sp c) (l := l)
    rw [List.all_eq_true] at this
    have := this c hc
    simpa using this

theorem matchColumn_head (l : List Char) : ∀ c cs, (matchColumn sp l).2 = c :: cs → sp c = false := by
  intro c cs h
  unfold matchColumn at h
  simp only at h
  have := List.head_dropWhile_not (p := sp) (l := l.dropWhile fun c => !sp c) (by rw [h]; simp)
  simpa [h] using this

/-- Skipping the patterns for lines without quotes changes nothing: the patterns would give the words of the line. -/
theorem slow_split (l : List Char) (hq : '"' ∉ l) (h : ∀ c cs, l = c :: cs → sp c = false) :
    slow sp l.length l = (split sp l).map fun w => (false, w) := by
  generalize hn : l.length = n
  induction n using Nat.strongRecOn generalizing l with
  | _ n ih =>
    subst hn
    by_cases h0 : l = []
    · subst h0; simp [slow, split, splitGo]
    · rw [slow_eq sp l h0]
      have hm : matchString sp l = none := by
        obtain ⟨c, cs, rfl⟩ := List.exists_cons_of_ne_nil h0
        have : ¬ c = '"' := fun e => hq (by rw [e]; exact List.mem_cons_self)
        simp [matchString, this]
      rw [hm]
      simp only
      rw [split_step sp l h h0, List.map_cons]
      congr 1
      apply ih _ (matchColumn_rest sp l h0) _ _ (matchColumn_head sp l) rfl
      intro hmem
      apply hq
      exact ((List.dropWhile_sublist sp).trans (List.dropWhile_sublist _)).subset hmem

/-- What is written in a data file for a field. -/
def render (f : Field) : List Char := if f.1 then '"' :: f.2 ++ ['"'] else f.2

/-- A line of fields with single spaces. -/
def renderLine : List Field → List Char
  | [] => []
  | [f] => render f
  | f :: fs => render f ++ ' ' :: renderLine fs

/-- The fields that can be written: quoted fields have no quotes before white space inside; other fields are not empty, have no white space and do not begin with a quote. -/
def Writable (f : Field) : Prop :=
  if f.1 then ∀ a c b, f.2 = a ++ '"' :: c :: b → sp c = false else f.2 ≠ [] ∧ (∀ c ∈ f.2, sp c = false) ∧ f.2.head? ≠ some '"'

theorem strEnd_text (t l : List Char) (hspq : sp '"' = false) (ht : ∀ a c b, t = a ++ '"' :: c :: b → sp c = false) (hl : closes sp l = true) :
    strEnd sp (t ++ '"' :: l) = some (t, l.dropWhile sp) := by
  induction t with
  | nil => simp [strEnd, hl]
  | cons c cs ih =>
    have hn : ¬ (c = '"' ∧ closes sp (cs ++ '"' :: l) = true) := by
      rintro ⟨rfl, h⟩
      cases cs with
      | nil => simp [closes, hspq] at h
      | cons d ds =>
        have := ht [] d ds rfl
        simp [closes, this] at h
    simp only [List.cons_append, strEnd, hn, if_false]
    rw [ih fun a d b h => ht (c :: a) d b (by rw [h]; rfl)]
    rfl

theorem render_head (hspq : sp '"' = false) (f : Field) (hf : Writable sp f) : ∃ c cs, render f = c :: cs ∧ sp c = false := by
  obtain ⟨q, t⟩ := f
  cases q with
  | true => exact ⟨'"', t ++ ['"'], by simp [render], hspq⟩
  | false =>
    simp only [Writable, Bool.false_eq_true, if_false] at hf
    obtain ⟨c, cs, rfl⟩ := List.exists_cons_of_ne_nil hf.1
    exact ⟨c, cs, by simp [render], hf.2.1 c List.mem_cons_self⟩

theorem renderLine_head (hspq : sp '"' = false) (fs : List Field) (hf : ∀ f ∈ fs, Writable sp f) : ∀ c cs, renderLine fs = c :: cs → sp c = false := by
  intro c cs h
  match fs with
  | [] => simp [renderLine] at h
  | [f] =>
    obtain ⟨c', cs', h1, h2⟩ := render_head sp hspq f (hf f (by simp))
    simp only [renderLine, h1, List.cons.injEq] at h
    rw [← h.1]; exact h2
  | f :: g :: fs =>
    obtain ⟨c', cs', h1, h2⟩ := render_head sp hspq f (hf f (by simp))
    simp only [renderLine, h1, List.cons_append, List.cons.injEq] at h
    rw [← h.1]; exact h2

theorem slow_render (hsp : sp ' ' = true) (hspq : sp '"' = false) (fs : List Field) (hf : ∀ f ∈ fs, Writable sp f) :
    slow sp (renderLine fs).length (renderLine fs) = fs := by
  induction fs with
  | nil => simp [renderLine, slow]
  | cons f fs ih =>
    have hrest : ∀ g ∈ fs, Writable sp g := fun g hg => hf g (List.mem_cons_of_mem _ hg)
    -- the line after the field
    obtain ⟨rest, hline, hcl, hdrop⟩ : ∃ rest, renderLine (f :: fs) = render f ++ rest ∧ closes sp rest = true ∧ rest.dropWhile sp = renderLine fs := by
      cases fs with
      | nil => exact ⟨[], by simp [renderLine], rfl, by simp [renderLine]⟩
      | cons g gs =>
        refine ⟨' ' :: renderLine (g :: gs), rfl, hsp, ?_⟩
        rw [List.dropWhile_cons_of_pos hsp]
        have := renderLine_head sp hspq (g :: gs) hrest
        cases hr : renderLine (g :: gs) with
        | nil => simp
        | cons c cs => rw [List.dropWhile_cons_of_neg (by simp [this c cs hr])]
    obtain ⟨c, cs, h1, h2⟩ := render_head sp hspq f (hf f List.mem_cons_self)
    rw [hline, slow_eq sp _ (by rw [h1]; simp)]
    obtain ⟨q, t⟩ := f
    have hw := hf _ List.mem_cons_self
    cases q with
    | true =>
      simp only [Writable, if_true] at hw
      have : matchString sp (render (true, t) ++ rest) = some (t, renderLine fs) := by
        simp only [render, if_true, List.cons_append, matchString, List.append_assoc, List.nil_append]
        rw [strEnd_text sp t rest hspq hw hcl, hdrop]
      rw [this]
      simp only
      rw [ih hrest]
    | false =>
      simp only [Writable, Bool.false_eq_true, if_false] at hw
      obtain ⟨d, ds, rfl⟩ := List.exists_cons_of_ne_nil hw.1
      have hd : ¬ d = '"' := by
        have := hw.2.2
        simpa using this
      have : matchString sp (render (false, d :: ds) ++ rest) = none := by
        simp [render, matchString, hd]
      rw [this]
      simp only
      have hmc : matchColumn sp (render (false, d :: ds) ++ rest) = (d :: ds, renderLine fs) := by
        simp only [render, Bool.false_eq_true, if_false, matchColumn]
        have hall : ∀ c ∈ d :: ds, (fun c => !sp c) c = true := by
          intro c hc
          simp [hw.2.1 c hc]
        rw [List.takeWhile_append_of_pos hall, List.dropWhile_append_of_pos hall]
        have hr : rest.takeWhile (fun c => !sp c) = [] ∧ rest.dropWhile (fun c => !sp c) = rest := by
          cases rest with
          | nil => simp
          | cons r rs =>
            simp only [closes] at hcl
            simp [hcl]
        rw [hr.1, hr.2, hdrop]
        simp
      rw [hmc]
      simp only
      rw [ih hrest]

/-- **C79.**  A line that is written as fields with quotes around texts is read as these fields, with or without the short cut for lines without quotes. -/
theorem fields_render (hsp : sp ' ' = true) (hspq : sp '"' = false) (fs : List Field) (hf : ∀ f ∈ fs, Writable sp f) : fields sp (renderLine fs) = fs := by
  unfold fields
  split
  · exact slow_render sp hsp hspq fs hf
  · rename_i h
    rw [← slow_split sp _ h (renderLine_head sp hspq fs hf)]
    exact slow_render sp hsp hspq fs hf

/-- **C79.**  The short cut for lines without quotes is no change: it gives what the patterns give. -/
theorem fields_patterns (l : List Char) (h : ∀ c cs, l = c :: cs → sp c = false) : fields sp l = slow sp l.length l := by
  unfold fields
  split
  · rfl
  · rename_i hq
    exact (slow_split sp l hq h).symm

/-- **C79.**  The values of a written line: texts in quotes are kept, other fields are numbers if they can be. -/
theorem splitValues_render (parse : List Char → Option F) (hsp : sp ' ' = true) (hspq : sp '"' = false) (fs : List Field) (hf : ∀ f ∈ fs, Writable sp f) :
    splitValues sp parse (renderLine fs) = fs.map (toValue parse) := by
  unfold splitValues
  rw [fields_render sp hsp hspq fs hf]

/-- **C79.**  Value by value: a quoted text is a text even if it looks like a number; others are numbers whenever they look like numbers, and texts otherwise. -/
theorem values_written (parse : List Char → Option F) (hsp : sp ' ' = true) (hspq : sp '"' = false) (fs : List Field) (hf : ∀ f ∈ fs, Writable sp f) :
    (splitValues sp parse (renderLine fs)).length = fs.length ∧ ∀ (i : ℕ) (t : List Char), (fs[i]? = some (true, t) → (splitValues sp parse (renderLine fs))[i]? = some (Value.str t)) ∧
      (fs[i]? = some (false, t) → ∀ x, parse t = some x → (splitValues sp parse (renderLine fs))[i]? = some (Value.num x)) ∧
      (fs[i]? = some (false, t) → parse t = none → (splitValues sp parse (renderLine fs))[i]? = some (Value.str t)) := by
  rw [splitValues_render sp parse hsp hspq fs hf]
  refine ⟨by simp, fun i t => ⟨fun h => ?_, fun h x hx => ?_, fun h hx => ?_⟩⟩
  · simp [h, toValue]
  · simp [h, toValue, hx]
  · simp [h, toValue, hx]

/-- A number in quotes, and a text with a quote inside. -/
example : (∀ f ∈ [(true, ['1']), (true, ['a', '"', 'b', ' ', 'c']), (false, ['2'])], Writable (fun c => c == ' ') f) ∧
    splitValues (fun c => c == ' ') (fun l => if l = ['1'] then some 1 else if l = ['2'] then some 2 else none)
      ['"', '1', '"', ' ', '"', 'a', '"', 'b', ' ', 'c', '"', ' ', '2'] = [.str ['1'], .str ['a', '"', 'b', ' ', 'c'], .num (2 : ℕ)] := by
  refine ⟨?_, rfl⟩
  intro f hf
  simp only [List.mem_cons, List.not_mem_nil, or_false] at hf
  rcases hf with rfl | rfl | rfl
  · intro a c b h
    rcases a with _ | ⟨_, _ | ⟨_, _⟩⟩ <;> simp at h
  · intro a c b h
    rcases a with _ | ⟨_, _ | ⟨_, _ | ⟨_, _ | ⟨_, _ | ⟨_, a⟩⟩⟩⟩⟩ <;> simp at h
    simp [← h.2.1]
  · simp [Writable]

theorem mem_strip (l : List Char) : ∀ c cs, strip sp l = c :: cs → sp c = false := by
  intro c cs h
  unfold strip at h
  have h1 : (l.dropWhile sp).reverse.dropWhile sp = cs.reverse ++ [c] := by
    have := congrArg List.reverse h
    simpa using this
  have h2 : c ∈ (l.dropWhile sp).head? := by
    have h3 : (l.dropWhile sp).reverse.dropWhile sp <:+ (l.dropWhile sp).reverse := List.dropWhile_suffix _
    rw [h1] at h3
    obtain ⟨t, ht⟩ := h3
    have := congrArg List.reverse ht
    simp only [List.reverse_append, List.reverse_cons, List.reverse_nil, List.nil_append, List.reverse_reverse, List.cons_append] at this
    rw [← this]
    simp
  have hne : l.dropWhile sp ≠ [] := by
    intro e; rw [e] at h2; simp at h2
  have h4 := List.head_dropWhile_not (p := sp) (l := l) hne
  rw [List.head?_eq_some_head hne] at h2
  simp only [Option.mem_def, Option.some.injEq] at h2
  rw [h2] at h4
  simpa using h4

/-- `"ab c" 1 x"y`. -/
example : fields (fun c => c == ' ') ['"', 'a', 'b', ' ', 'c', '"', ' ', '1', ' ', 'x', '"', 'y'] =
    [(true, ['a', 'b', ' ', 'c']), (false, ['1']), (false, ['x', '"', 'y'])] := by decide +kernel

end PyX.Data
