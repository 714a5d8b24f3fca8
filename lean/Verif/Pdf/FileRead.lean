import Verif.Pdf.File

/-!
# C152: a reader of PDF files

Written down independently of the model: from the end of the file to the cross-reference table, from the trailer to the catalog, to the page tree, the pages and their
contents and resources.
-/

set_option linter.unusedSectionVars false

namespace PyX.Pdf.File
open PyX.Texter (str str_digits str_ne toInt_str AllDigits takeWhile_digits)
open PyX.Tick (toInt isDigit)
open PyX.Pdf

/-! ## Specification -/

/-- The lines of a text. -/
def lines : List Char → List (List Char)
  | [] => [[]]
  | c :: s => if c = '\n' then [] :: lines s else
    match lines s with
    | [] => [[c]]
    | l :: ls => (c :: l) :: ls

/-- The number at the beginning of a text. -/
def number (s : List Char) : ℕ := toInt (s.takeWhile isDigit)

/-- The position of the cross-reference table: the number in the last line but one. -/
def readXref (file : List Char) : ℕ := toInt (((file.reverse.drop 7).takeWhile isDigit).reverse)

/-- The lines of an object behind `n 0 obj`, at the position which the cross-reference table has for it. -/
def readObj (file : List Char) (n : ℕ) : Option (List (List Char)) :=
  match lines (file.drop (number (xrefEntry file (readXref file) n))) with
  | [] => none
  | l :: ls => if l = str n ++ " 0 obj".toList then some ls else none

/-- What is behind a key of a dictionary, in front of the resources. -/
def field (key : List Char) : List (List Char) → Option (List Char)
  | [] => none
  | l :: ls => if l = ">>".toList ∨ l = "/Resources <<".toList then none else if key.isPrefixOf l then some (l.drop key.length) else field key ls

/-- The number of the catalog: the trailer is behind the cross-reference table. -/
def readRoot (file : List Char) : Option ℕ :=
  let table := afterNL (file.drop (readXref file))
  let size := number (table.drop 2)
  (field "/Root ".toList (lines ((afterNL table).drop (20 * size)))).map number


/-- Words: the text divided at blanks. -/
def words : List Char → List (List Char)
  | [] => [[]]
  | c :: s => if c = ' ' then [] :: words s else
    match words s with
    | [] => [[c]]
    | l :: ls => (c :: l) :: ls

/-- The object numbers in a list of words `n 0 R`. -/
def refs3 : List (List Char) → List ℕ
  | a :: _ :: _ :: r => number a :: refs3 r
  | _ => []

/-- The number of the page tree. -/
def readTree (file : List Char) : Option ℕ := do
  let root ← readRoot file
  let ls ← readObj file root
  (field "/Pages ".toList ls).map number

/-- The numbers of the pages. -/
def readKids (file : List Char) : Option (List ℕ) := do
  let tree ← readTree file
  let ls ← readObj file tree
  let kids ← field "/Kids [".toList ls
  some (refs3 (words (kids.takeWhile (fun c => c ≠ ']'))))

/-- The announced number of pages. -/
def readCount (file : List Char) : Option ℕ := do
  let tree ← readTree file
  let ls ← readObj file tree
  (field "/Count ".toList ls).map number

/-- An entry of a page. -/
def readPage (file : List Char) (page : ℕ) (key : List Char) : Option (List Char) := do
  let ls ← readObj file page
  field key ls

/-- The text behind the first occurrence of another one. -/
def behind (p : List Char) : List Char → Option (List Char)
  | [] => none
  | c :: s => if p.isPrefixOf (c :: s) then some ((c :: s).drop p.length) else behind p s

/-- The stream of an object: as many bytes behind `stream` as are announced. -/
def readStream (file : List Char) (n : ℕ) : Option (List Char) := do
  let ls ← readObj file n
  let len ← (field "/Length ".toList ls).map number
  let s ← behind ">>\nstream\n".toList (file.drop (number (xrefEntry file (readXref file) n)))
  if "endstream\n".toList.isPrefixOf (s.drop len) then some (s.take len) else none

/-- The resources: type, name and object number. -/
def readRes : Option (List Char) → List (List Char) → List (List Char × List Char × ℕ)
  | _, [] => []
  | none, l :: ls => if l = ">>".toList then [] else
    if " <<".toList.isSuffixOf l then readRes (some ((l.drop 1).take (l.length - 4))) ls else readRes none ls
  | some t, l :: ls => if l = ">>".toList then readRes none ls else
    (t, (l.drop 1).takeWhile (fun c => c ≠ ' '), number (((l.dropWhile fun c => c ≠ ' ')).drop 1)) :: readRes (some t) ls

/-- The resources of a page. -/
def readResources (file : List Char) (page : ℕ) : Option (List (List Char × List Char × ℕ)) := do
  let ls ← readObj file page
  some (readRes none ((ls.dropWhile fun l => l ≠ "/Resources <<".toList).drop 1))

/-! ## Lemmas -/

theorem lines_ne (s : List Char) : lines s ≠ [] := by
  cases s with
  | nil => simp [lines]
  | cons c s =>
    rw [lines]
    split
    · simp
    · split <;> simp

theorem lines_append (a b : List Char) (h : '\n' ∉ a) : lines (a ++ '\n' :: b) = a :: lines b := by
  induction a with
  | nil => simp [lines]
  | cons c a ih =>
    rw [List.cons_append, lines, if_neg (fun e => h (by simp [e])), ih fun hm => h (by simp [hm])]

theorem lines_txt (ls : List (List Char)) (rest : List Char) (h : ∀ l ∈ ls, '\n' ∉ l) : lines (txt ls ++ rest) = ls ++ lines rest := by
  induction ls with
  | nil => rfl
  | cons l ls ih =>
    have : txt (l :: ls) ++ rest = l ++ '\n' :: (txt ls ++ rest) := by simp [txt]
    rw [this, lines_append _ _ (h l (by simp)), ih fun l' hl => h l' (by simp [hl])]
    rfl

theorem number_str (n : ℕ) (r : List Char) (hr : ∀ c ∈ r.head?, isDigit c = false) : number (str n ++ r) = n := by
  rw [number, (takeWhile_digits (str n) r (str_digits n) hr).1, toInt_str]

theorem readXref_spec (file : List Char) (x : ℕ) (h : ("startxref\n".toList ++ str x ++ "\n%%EOF\n".toList) <:+ file) : readXref file = x := by
  obtain ⟨pre, rfl⟩ := h
  unfold readXref
  have e : (pre ++ ("startxref\n".toList ++ str x ++ "\n%%EOF\n".toList)).reverse =
      "\n%%EOF\n".toList.reverse ++ ((str x).reverse ++ ('\n' :: ("startxref".toList.reverse ++ pre.reverse))) := by
    simp only [List.reverse_append, List.append_assoc]
    rfl
  rw [e, List.drop_left' (by rfl)]
  rw [(takeWhile_digits (str x).reverse _ (fun c hc => str_digits x c (List.mem_reverse.1 hc)) (by
    intro c hc; simp at hc; subst hc; decide)).1, List.reverse_reverse, toInt_str]

theorem entry_number (line : List Char) (pos : ℕ) (h : IsEntry line pos) : number line = pos := by
  obtain ⟨d, h1, _, h3, rfl⟩ := h
  rw [number, (takeWhile_digits d _ h1 (by intro c hc; simp at hc; subst hc; decide)).1, h3]

/-- An object of the file as the reader sees it. -/
theorem readObj_of (file : List Char) (n pos : ℕ) (ls : List (List Char)) (rest : List Char) (hx : number (xrefEntry file (readXref file) n) = pos)
    (hls : ∀ l ∈ ls, '\n' ∉ l) (h : file.drop pos = str n ++ " 0 obj\n".toList ++ txt ls ++ rest) : readObj file n = some (ls ++ lines rest) := by
  unfold readObj
  rw [hx, h]
  have e : str n ++ " 0 obj\n".toList ++ txt ls ++ rest = (str n ++ " 0 obj".toList) ++ '\n' :: (txt ls ++ rest) := by
    simp only [List.append_assoc]; rfl
  have hn : '\n' ∉ str n ++ " 0 obj".toList := by
    intro hm
    rcases List.mem_append.1 hm with hm | hm
    · exact str_no_nl _ hm
    · revert hm; decide
  rw [e, lines_append _ _ hn, lines_txt ls rest hls]
  simp

theorem field_skip (key l : List Char) (ls : List (List Char)) (h1 : ¬ (l = ">>".toList ∨ l = "/Resources <<".toList)) (h2 : key.isPrefixOf l = false) : field key (l :: ls) = field key ls := by
  rw [field, if_neg h1, if_neg (by simp [h2])]

theorem field_hit (key l : List Char) (ls : List (List Char)) (h1 : ¬ (l = ">>".toList ∨ l = "/Resources <<".toList)) (h2 : key.isPrefixOf l = true) : field key (l :: ls) = some (l.drop key.length) := by
  rw [field, if_neg h1, if_pos h2]

/-- The object with a key which is only registered in one form is that object. -/
theorem add_only {κ : Type} [DecidableEq κ] (objects : List (Obj κ)) (o x : Obj κ) (hx : x.merges = false) (h : ∀ p ∈ objects, p.key = x.key → p = x)
    (ho : o.key = x.key → o = x) : ∀ p ∈ add objects o, p.key = x.key → p = x := by
  intro p hp hk
  unfold add at hp
  split at hp
  · obtain ⟨q, hq, rfl⟩ := List.mem_map.1 hp
    by_cases hqo : q.key = o.key
    · rw [if_pos hqo] at hk ⊢
      rw [merge_key] at hk
      have := h q hq hk
      subst this
      unfold Obj.merge
      rw [hx]; rfl
    · rw [if_neg hqo] at hk ⊢
      exact h q hq hk
  · rcases List.mem_append.1 hp with hp | hp
    · exact h p hp hk
    · rw [List.mem_singleton] at hp
      subst hp
      exact ho hk

theorem foldl_add_only {κ : Type} [DecidableEq κ] (os objects : List (Obj κ)) (x : Obj κ) (hx : x.merges = false) (h : ∀ p ∈ objects, p.key = x.key → p = x)
    (ho : ∀ o ∈ os, o.key = x.key → o = x) : ∀ p ∈ os.foldl add objects, p.key = x.key → p = x := by
  induction os generalizing objects with
  | nil => exact h
  | cons o os ih =>
    rw [List.foldl_cons]
    exact ih _ (add_only objects o x hx h (ho o (by simp))) fun o' h' => ho o' (by simp [h'])

/-- The objects of a registration. -/
def Reg.objs {κ : Type} : Reg κ → List (Obj κ)
  | .add o => [o]
  | .page os => os

theorem registered_only {κ : Type} [DecidableEq κ] (rs : List (Reg κ)) (x : Obj κ) (hx : x.merges = false) (ho : ∀ r ∈ rs, ∀ o ∈ Reg.objs r, o.key = x.key → o = x) :
    ∀ p ∈ registered rs, p.key = x.key → p = x := by
  unfold registered
  suffices gen : ∀ (rs : List (Reg κ)) (objects : List (Obj κ)), (∀ p ∈ objects, p.key = x.key → p = x) → (∀ r ∈ rs, ∀ o ∈ Reg.objs r, o.key = x.key → o = x) →
      ∀ p ∈ rs.foldl register objects, p.key = x.key → p = x from gen rs [] (by simp) ho
  intro rs
  induction rs with
  | nil => intro objects h _; exact h
  | cons r rs ih =>
    intro objects h ho
    rw [List.foldl_cons]
    refine ih _ ?_ fun r' h' => ho r' (by simp [h'])
    cases r with
    | add o => exact add_only objects o x hx h (ho (.add o) (by simp) o (by simp [Reg.objs]))
    | page os =>
      refine foldl_add_only _ objects x hx h ?_
      exact foldl_add_only os [] x hx (by simp) fun o h' => ho (.page os) (by simp) o h'

/-- What the reader finds for a registered object. -/
theorem write_obj {κ : Type} [DecidableEq κ] (objects : List (Obj κ)) (hu : Unique objects) (head : List Char) (catalog pdfinfo : κ) (file : List Char)
    (h : write objects head catalog pdfinfo = some file) (hlen : file.length < 10 ^ 10) (k : κ) (n : ℕ) (hk : getrefno objects k = some n) :
    ∃ o nos rest, o ∈ objects ∧ o.key = k ∧ o.refs.mapM (getrefno objects) = some nos ∧
      file.drop (number (xrefEntry file (readXref file) n)) = str n ++ " 0 obj\n".toList ++ o.body nos ++ "endobj\n".toList ++ rest := by
  obtain ⟨x, h1, _, h3⟩ := write_spec objects head catalog pdfinfo file h hlen
  obtain ⟨i, o, rfl, hi, hok⟩ := (getrefno_spec objects hu k n).1 hk
  obtain ⟨pos, nos, g1, g2, rest, g3⟩ := h3 i o hi
  refine ⟨o, nos, rest, List.mem_of_getElem? hi, hok, g2, ?_⟩
  rw [readXref_spec file x h1, entry_number _ _ g1, ← g3]

/-- The trailer names the catalog. -/
theorem write_root {κ : Type} [DecidableEq κ] (objects : List (Obj κ)) (head : List Char) (catalog pdfinfo : κ) (file : List Char)
    (h : write objects head catalog pdfinfo = some file) (hlen : file.length < 10 ^ 10) : ∃ root, getrefno objects catalog = some root ∧ readRoot file = some root := by
  unfold write at h
  cases hw : writeObjs objects objects 1 head [] with
  | none => rw [hw] at h; cases h
  | some w =>
    obtain ⟨f, ps⟩ := w
    rw [hw] at h
    simp only [Option.bind_eq_bind, Option.bind_some] at h
    cases hr : getrefno objects catalog with
    | none => rw [hr] at h; cases h
    | some root =>
      cases hi : getrefno objects pdfinfo with
      | none => rw [hr, hi] at h; cases h
      | some info =>
        rw [hr, hi] at h
        simp only [Option.bind_some, Option.some.injEq] at h
        obtain ⟨ps', e1, e2, e3, e4, e5⟩ := writeObjs_spec objects objects 1 head [] f ps hw
        simp only [List.nil_append] at e1
        subst e1
        have hfl : f.length ≤ file.length := by rw [← h]; simp only [List.length_append]; omega
        refine ⟨root, rfl, ?_⟩
        have hx : readXref file = f.length := by
          apply readXref_spec
          rw [← h]
          exact List.suffix_append _ _
        unfold readRoot
        rw [hx]
        simp only
        have hd : file.drop f.length = "xref".toList ++ '\n' :: (("0 ".toList ++ str (objects.length + 1)) ++ '\n' ::
            ((("0000000000 65535 f \n".toList :: ps.map xrefLine).flatten) ++ (txt ["trailer".toList, "<<".toList, "/Size ".toList ++ str (objects.length + 1),
              "/Root ".toList ++ (str root ++ " 0 R".toList)] ++ ("/Info ".toList ++ str info ++ " 0 R\n>>\n".toList ++ ("startxref\n".toList ++ str f.length ++ "\n%%EOF\n".toList))))) := by
          rw [← h]
          rw [List.append_assoc, List.append_assoc, List.drop_left]
          simp [txt, List.flatten_cons]
        rw [hd, afterNL_append _ _ (by decide)]
        have hnl : '\n' ∉ "0 ".toList ++ str (objects.length + 1) := by
          intro hm
          rcases List.mem_append.1 hm with hm | hm
          · revert hm; decide
          · exact str_no_nl _ hm
        rw [afterNL_append _ _ hnl]
        have hs : number ((("0 ".toList ++ str (objects.length + 1)) ++ '\n' :: ((("0000000000 65535 f \n".toList :: ps.map xrefLine).flatten) ++
            (txt ["trailer".toList, "<<".toList, "/Size ".toList ++ str (objects.length + 1),
              "/Root ".toList ++ (str root ++ " 0 R".toList)] ++ ("/Info ".toList ++ str info ++ " 0 R\n>>\n".toList ++ ("startxref\n".toList ++ str f.length ++ "\n%%EOF\n".toList))))).drop 2) =
            objects.length + 1 := by
          rw [List.append_assoc]
          have : ∀ r : List Char, ("0 ".toList ++ (str (objects.length + 1) ++ r)).drop 2 = str (objects.length + 1) ++ r := fun _ => rfl
          rw [this, number_str _ _ (by intro c hc; simp at hc; subst hc; decide)]
        rw [hs]
        have hl : ("0000000000 65535 f \n".toList :: ps.map xrefLine).flatten.length = 20 * (objects.length + 1) := by
          have : ∀ L : List (List Char), (∀ l ∈ L, l.length = 20) → L.flatten.length = 20 * L.length := by
            intro L hL
            induction L with
            | nil => rfl
            | cons l L ih => rw [List.flatten_cons, List.length_append, hL l (by simp), ih fun l' hl' => hL l' (by simp [hl']), List.length_cons]; omega
          rw [this]
          · simp [e2]
          · intro l hl
            rcases List.mem_cons.1 hl with rfl | hl
            · decide
            · obtain ⟨p, hp, rfl⟩ := List.mem_map.1 hl
              have hp' : p < 10 ^ 10 := lt_of_le_of_lt ((e4 p hp).trans hfl) hlen
              simp [xrefLine, (pad10_spec p hp').2.1]
        rw [List.drop_left' hl, lines_txt]
        · rw [List.cons_append, field_skip _ _ _ (by decide) (by decide), List.cons_append, field_skip _ _ _ (by decide) (by decide), List.cons_append,
            field_skip _ _ _ (by simp) rfl, List.cons_append, field_hit _ _ _ (by simp) rfl]
          rw [Option.map_some]
          congr 1
          exact number_str root _ (by intro c hc; simp at hc; subst hc; decide)
        · intro l hl
          simp only [List.mem_cons, List.not_mem_nil, or_false] at hl
          rcases hl with rfl | rfl | rfl | rfl
          · decide
          · decide
          · intro hm
            rcases List.mem_append.1 hm with hm | hm
            · revert hm; decide
            · exact str_no_nl _ hm
          · intro hm
            rcases List.mem_append.1 hm with hm | hm
            · revert hm; decide
            · rcases List.mem_append.1 hm with hm | hm
              · exact str_no_nl _ hm
              · revert hm; decide

end PyX.Pdf.File
