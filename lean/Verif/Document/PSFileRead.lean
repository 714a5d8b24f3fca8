import Verif.Document.PSFile

/-!
# A reader of the structure of PostScript files

The document structuring conventions, as far as needed: a line beginning with one of the keywords separates sections unless it is within an included
document, font or resource or within data of an announced number of lines.
-/

set_option linter.unusedSectionVars false

namespace PyX.PSFile

open Eps (linesOf firstLine)

/-! ## Specification: the reader -/

def openKeys : List Str := [lit "%%BeginDocument:", lit "%%BeginFont:", lit "%%BeginResource:"]
def closeKeys : List Str := [lit "%%EndDocument", lit "%%EndFont", lit "%%EndResource"]
def dataKey : Str := lit "%%BeginData:"
def topKeys : List Str := [lit "%%EndComments", lit "%%BeginProlog", lit "%%EndProlog", lit "%%Page:", lit "%%BeginPageSetup", lit "%%EndPageSetup",
  lit "%%PageTrailer", lit "%%Trailer", lit "%%EOF"]

inductive Kind
  | opens | closes | data (n : ℕ) | top | plain
deriving DecidableEq

/-- The first number of a text. -/
def firstNumber (s : Str) : ℕ := Nat.ofDigitChars 10 ((s.dropWhile fun c => !c.isDigit).takeWhile Char.isDigit) 0

def startsWithAny (ks : List Str) (l : Str) : Bool := ks.any fun k => k.isPrefixOf l

/-- What a line is. -/
def kind (l : Str) : Kind :=
  if startsWithAny openKeys l then .opens
  else if startsWithAny closeKeys l then .closes
  else if dataKey.isPrefixOf l then .data (firstNumber l)
  else if startsWithAny topKeys l then .top
  else .plain

/-- The lines, marked whether they begin a section; the first numbers are the lines of data to be skipped and the depth of included documents. -/
def marks : ℕ → ℕ → List Str → List (Bool × Str)
  | _, _, [] => []
  | n + 1, d, l :: ls => (false, l) :: marks n d ls
  | 0, d, l :: ls =>
    match kind l with
    | .opens => (false, l) :: marks 0 (d + 1) ls
    | .closes => (false, l) :: marks 0 (d - 1) ls
    | .data n => (false, l) :: marks n d ls
    | .top => (decide (d = 0), l) :: marks 0 d ls
    | .plain => (false, l) :: marks 0 d ls

/-- The lines before the first section, and the sections: first line and other lines. -/
def group : List (Bool × Str) → List Str × List (Str × List Str)
  | [] => ([], [])
  | (b, l) :: r => if b then ([], (l, (group r).1) :: (group r).2) else (l :: (group r).1, (group r).2)

/-- A file as it is read. -/
def sections (text : Str) : List Str × List (Str × List Str) := group (marks 0 0 (linesOf text))

/-- The name and the number of a page: the number is the last word. -/
def readLabel (l : Str) : Str × ℕ :=
  let s := (l.drop 8).dropLast
  let r := s.reverse
  (((r.dropWhile (· != ' ')).drop 1).reverse, Nat.ofDigitChars 10 (r.takeWhile (· != ' ')).reverse 0)

/-- A page as it is read: name, number, comments, and the lines to be executed. -/
structure ReadPage where
  label : Str
  number : ℕ
  comments : List Str
  body : List Str
deriving DecidableEq

/-- The lines up to the end of a page. -/
def uptoTrailer : List (Str × List Str) → List Str
  | [] => []
  | (l, ls) :: r => if (lit "%%PageTrailer").isPrefixOf l || (lit "%%Page:").isPrefixOf l || (lit "%%Trailer").isPrefixOf l then [] else ls ++ uptoTrailer r

/-- The pages of a file. -/
def pagesOf : List (Str × List Str) → List ReadPage
  | [] => []
  | (l, ls) :: r => if (lit "%%Page:").isPrefixOf l then ⟨(readLabel l).1, (readLabel l).2, ls, uptoTrailer r⟩ :: pagesOf r else pagesOf r

/-- Lines which do not disturb the structure of the file around them; inside an included document (`true`) there may be anything but unbalanced inclusions. -/
inductive Body : Bool → List Str → Prop
  | nil (i : Bool) : Body i []
  | plain (i : Bool) (l : Str) (ls : List Str) : kind l = .plain ∨ (i = true ∧ kind l = .top) → Body i ls → Body i (l :: ls)
  | nested (i : Bool) (b e : Str) (xs ls : List Str) : kind b = .opens → kind e = .closes → Body true xs → Body i ls → Body i (b :: (xs ++ e :: ls))
  | data (i : Bool) (b : Str) (xs ls : List Str) : kind b = .data xs.length → Body i ls → Body i (b :: (xs ++ ls))

/-- Nothing, or a text whose last line is complete. -/
def Ended (s : Str) : Prop := s = [] ∨ ∃ a, s = a ++ ['\n']

/-- Text within a line. -/
def Clean (s : Str) : Prop := ∀ c ∈ s, c ≠ '\n' ∧ c ≠ '\r'

/-! ## Lines -/

theorem firstLine_line (l rest : Str) (h : Clean l) : firstLine (line l ++ rest) = (line l, rest) := by
  unfold line
  induction l with
  | nil => simp [firstLine]
  | cons c l ih =>
    have hc := h c (by simp)
    have := ih fun x hx => h x (by simp [hx])
    simp only [List.cons_append, List.append_assoc, List.nil_append] at this ⊢
    unfold firstLine
    rw [if_neg hc.1, if_neg hc.2, this]

theorem linesOf_line (l rest : Str) (h : Clean l) : linesOf (line l ++ rest) = line l :: linesOf rest := by
  rw [linesOf, dif_neg (by simp [line]), firstLine_line l rest h]

theorem linesOf_nil : linesOf [] = [] := by rw [linesOf, dif_pos rfl]

theorem ended_append {a b : Str} (ha : Ended a) (hb : Ended b) : Ended (a ++ b) := by
  rcases hb with rfl | ⟨c, rfl⟩
  · simpa using ha
  · exact Or.inr ⟨a ++ c, by simp⟩

theorem ended_line (l : Str) : Ended (line l) := Or.inr ⟨l, rfl⟩

theorem ended_append_line (a l : Str) : Ended (a ++ line l) := Or.inr ⟨a ++ l, by simp [line]⟩

theorem ended_rest {f r : Str} (h : Ended (f ++ r)) : Ended r := by
  rcases h with h | ⟨a, h⟩
  · exact Or.inl (List.append_eq_nil_iff.1 h).2
  · rcases List.eq_nil_or_concat r with rfl | ⟨b, c, rfl⟩
    · exact Or.inl rfl
    · rw [List.concat_eq_append, ← List.append_assoc] at h
      have := (List.append_inj' h rfl).2
      exact Or.inr ⟨b, by rw [List.concat_eq_append, this]⟩

theorem linesOf_append (b : Str) : ∀ (n : ℕ) (a : Str), a.length ≤ n → Ended a → linesOf (a ++ b) = linesOf a ++ linesOf b := by
  intro n
  induction n with
  | zero =>
    intro a ha _
    have : a = [] := List.length_eq_zero_iff.1 (by omega)
    subst this
    rw [linesOf_nil]; rfl
  | succ n ih =>
    intro a ha he
    by_cases h0 : a = []
    · subst h0; rw [linesOf_nil]; rfl
    · have hw : Eps.wantsMore a = false := by
        rcases he with rfl | ⟨c, rfl⟩
        · exact absurd rfl h0
        · have : (Eps.find '\n' (c ++ ['\n'])).isNone = false := by
            unfold Eps.find
            cases e : List.findIdx? (· == '\n') (c ++ ['\n']) with
            | none => rw [List.findIdx?_eq_none_iff] at e; simpa using e '\n' (by simp)
            | some _ => rfl
          unfold Eps.wantsMore
          rw [this, Bool.false_and]
      have h1 := Eps.firstLine_append a
      have h2 := List.length_pos_iff.2 (fun h => h0 ((Eps.firstLine_nil a).1 h))
      have h3 := congrArg List.length h1
      simp only [List.length_append] at h3
      have key := ih (firstLine a).2 (by omega) (ended_rest (f := (firstLine a).1) (by rw [h1]; exact he))
      rw [linesOf, dif_neg (by simp [h0]), Eps.firstLine_buffer a b hw, key]
      conv_rhs => rw [linesOf, dif_neg h0]
      rfl

theorem lines_append {a : Str} (b : Str) (h : Ended a) : linesOf (a ++ b) = linesOf a ++ linesOf b := linesOf_append b a.length a le_rfl h

theorem lines_line (l : Str) (h : Clean l) : linesOf (line l) = [line l] := by
  have := linesOf_line l [] h
  rwa [List.append_nil, linesOf_nil] at this

/-! ## The kinds of lines -/

/-- Two texts which differ at some place. -/
def clash : Str → Str → Bool
  | a :: as, b :: bs => a != b || clash as bs
  | _, _ => false

theorem clash_prefix : ∀ (p k t : Str), clash p k = true → p.isPrefixOf (k ++ t) = false
  | a :: as, b :: bs, t, h => by
    rw [clash, Bool.or_eq_true] at h
    rw [List.cons_append, List.isPrefixOf]
    by_cases hab : a = b
    · have h2 : clash as bs = true := by rcases h with h | h; · simp [hab] at h
                                         · exact h
      rw [clash_prefix as bs t h2, Bool.and_false]
    · simp [hab]
  | [], _, _, h => by simp [clash] at h
  | _ :: _, [], _, h => by simp [clash] at h

theorem not_any (ks : List Str) (k t : Str) (h : ks.all (clash · k) = true) : startsWithAny ks (k ++ t) = false := by
  rw [List.all_eq_true] at h
  unfold startsWithAny
  rw [List.any_eq_false]
  intro p hp
  rw [clash_prefix p k t (h p hp)]; decide

theorem kind_plain (k t : Str) (h : (openKeys ++ closeKeys ++ [dataKey] ++ topKeys).all (clash · k) = true) : kind (k ++ t) = .plain := by
  simp only [List.all_append, Bool.and_eq_true, List.all_cons, List.all_nil] at h
  unfold kind
  rw [not_any _ k t h.1.1.1, not_any _ k t h.1.1.2, clash_prefix _ k t h.1.2.1, not_any _ k t h.2]
  rfl

theorem kind_top (k t : Str) (h : (openKeys ++ closeKeys ++ [dataKey]).all (clash · k) = true) (h2 : startsWithAny topKeys k = true) : kind (k ++ t) = .top := by
  simp only [List.all_append, Bool.and_eq_true, List.all_cons, List.all_nil] at h
  unfold kind
  have h3 : startsWithAny topKeys (k ++ t) = true := by
    unfold startsWithAny at h2 ⊢
    rw [List.any_eq_true] at h2 ⊢
    obtain ⟨p, hp, h2⟩ := h2
    exact ⟨p, hp, List.isPrefixOf_iff_prefix.2 ((List.isPrefixOf_iff_prefix.1 h2).trans (List.prefix_append _ _))⟩
  rw [not_any _ k t h.1.1, not_any _ k t h.1.2, clash_prefix _ k t h.2.1, h3]
  rfl

theorem kind_opens (k t : Str) (h2 : startsWithAny openKeys k = true) : kind (k ++ t) = .opens := by
  unfold kind
  have h3 : startsWithAny openKeys (k ++ t) = true := by
    unfold startsWithAny at h2 ⊢
    rw [List.any_eq_true] at h2 ⊢
    obtain ⟨p, hp, h2⟩ := h2
    exact ⟨p, hp, List.isPrefixOf_iff_prefix.2 ((List.isPrefixOf_iff_prefix.1 h2).trans (List.prefix_append _ _))⟩
  rw [h3]; rfl

/-! ## Sections -/

theorem marks_skip (d : ℕ) (rest : List Str) : ∀ xs : List Str, marks xs.length d (xs ++ rest) = xs.map (fun l => (false, l)) ++ marks 0 d rest
  | [] => rfl
  | x :: xs => by
    rw [List.cons_append, List.length_cons, marks, marks_skip d rest xs]; rfl

theorem marks_body {i : Bool} {ls : List Str} (h : Body i ls) : ∀ (d : ℕ) (rest : List Str), (i = true → 0 < d) →
    marks 0 d (ls ++ rest) = ls.map (fun l => (false, l)) ++ marks 0 d rest := by
  induction h with
  | nil i => intros; rfl
  | plain i l ls hl _ ih =>
    intro d rest hd
    rw [List.cons_append, marks]
    rcases hl with hl | ⟨hi, hl⟩
    · rw [hl]; dsimp only; rw [ih d rest hd]; rfl
    · rw [hl]; dsimp only
      have := hd hi
      rw [ih d rest hd, decide_eq_false (by omega)]; rfl
  | nested i b e xs ls hb he _ _ ih1 ih2 =>
    intro d rest hd
    rw [List.cons_append, marks, hb]
    dsimp only
    rw [List.append_assoc, ih1 (d + 1) _ (fun _ => by omega), List.cons_append, marks, he]
    dsimp only
    rw [Nat.add_sub_cancel, ih2 d rest hd]
    simp
  | data i b xs ls hb _ ih =>
    intro d rest hd
    rw [List.cons_append, marks, hb]
    dsimp only
    rw [List.append_assoc, marks_skip, ih d rest hd]
    simp

theorem body_append {i : Bool} {a b : List Str} (ha : Body i a) (hb : Body i b) : Body i (a ++ b) := by
  induction ha with
  | nil i => exact hb
  | plain i l ls hl _ ih => exact Body.plain i l _ hl (ih hb)
  | nested i b' e xs ls h1 h2 h3 _ _ ih =>
    have := Body.nested i b' e xs _ h1 h2 h3 (ih hb)
    simpa using this
  | data i b' xs ls h1 _ ih =>
    have := Body.data i b' xs _ h1 (ih hb)
    simpa using this

theorem group_plain (ls : List Str) (r : List (Bool × Str)) : group (ls.map (fun l => (false, l)) ++ r) = (ls ++ (group r).1, (group r).2) := by
  induction ls with
  | nil => rfl
  | cons l ls ih => rw [List.map_cons, List.cons_append, group, ih]; rfl

theorem group_top (l : Str) (r : List (Bool × Str)) : group ((true, l) :: r) = ([], (l, (group r).1) :: (group r).2) := by rw [group]; rfl

/-- The sections of lines. -/
def secs (ls : List Str) : List Str × List (Str × List Str) := group (marks 0 0 ls)

theorem secs_body {ls : List Str} (h : Body false ls) (rest : List Str) : secs (ls ++ rest) = (ls ++ (secs rest).1, (secs rest).2) := by
  unfold secs
  rw [marks_body h 0 rest (by simp), group_plain]

theorem secs_top {l : Str} (h : kind l = .top) (rest : List Str) : secs (l :: rest) = ([], (l, (secs rest).1) :: (secs rest).2) := by
  unfold secs
  rw [marks, h]
  dsimp only
  rw [decide_eq_true rfl, group_top]

theorem secs_plain {l : Str} (h : kind l = .plain) (rest : List Str) : secs (l :: rest) = (l :: (secs rest).1, (secs rest).2) :=
  secs_body (Body.plain false l [] (Or.inl h) (Body.nil _)) rest

end PyX.PSFile
