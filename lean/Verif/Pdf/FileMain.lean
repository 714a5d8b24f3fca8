import Verif.Pdf.FileProps

/-!
# C152: theorems
-/

set_option linter.unusedSectionVars false
set_option linter.unusedSimpArgs false

namespace PyX.Pdf.File
open PyX.Texter (str str_digits str_ne toInt_str AllDigits takeWhile_digits)
open PyX.Tick (toInt isDigit)
open PyX.Pdf

variable {σ : Type} [DecidableEq σ]

theorem plain_append (a b : List Char) (ha : '\n' ∉ a) (hb : '\n' ∉ b) : '\n' ∉ a ++ b := by
  intro h; rcases List.mem_append.1 h with h | h
  · exact ha h
  · exact hb h

theorem groups_plain (gs : List (List Char × List (List Char))) (nos : List ℕ) (hn : ∀ g ∈ gs, Name g.1 ∧ ∀ n ∈ g.2, Name n) : ∀ l ∈ groupsLines gs nos, '\n' ∉ l := by
  induction gs generalizing nos with
  | nil => simp [groupsLines]
  | cons g gs ih =>
    obtain ⟨t, names⟩ := g
    obtain ⟨ht, hns⟩ := hn (t, names) (by simp)
    intro l hl
    rw [groupsLines] at hl
    rcases List.mem_append.1 hl with hl | hl
    · unfold groupLines at hl
      rcases List.mem_append.1 hl with hl | hl
      · rcases List.mem_append.1 hl with hl | hl
        · rw [List.mem_singleton] at hl; subst hl
          exact plain_append _ _ (plain_append _ _ (by decide) ht.1) (by decide)
        · have : ∀ (names : List (List Char)) (nos : List ℕ), (∀ n ∈ names, Name n) → ∀ l ∈ List.zipWith (fun n no => "/".toList ++ n ++ " ".toList ++ str no ++ " 0 R".toList) names nos, '\n' ∉ l := by
            intro names
            induction names with
            | nil => simp
            | cons n names ih =>
              intro nos h l hl
              cases nos with
              | nil => simp at hl
              | cons no nos =>
                rw [List.zipWith_cons_cons] at hl
                rcases List.mem_cons.1 hl with rfl | hl
                · exact plain_append _ _ (plain_append _ _ (plain_append _ _ (plain_append _ _ (by decide) (h n (by simp)).1) (by decide)) (str_no_nl _)) (by decide)
                · exact ih nos (fun n' h' => h n' (by simp [h'])) l hl
          exact this names _ hns l hl
      · rw [List.mem_singleton] at hl; subst hl; decide
    · exact ih _ (fun g hg => hn g (by simp [hg])) l hl

theorem resourceList_names (calls : List (Call σ)) (h : ∀ c ∈ calls, Name c.type ∧ Name c.name) :
    ∀ g ∈ (resourceList calls).map (fun r => (r.1, r.2.map Prod.fst)), (g.2 ≠ [] → Name g.1) ∧ ∀ n ∈ g.2, Name n := by
  intro g hg
  obtain ⟨⟨t, d⟩, hr, rfl⟩ := List.mem_map.1 hg
  have key : ∀ e ∈ d, Name t ∧ Name e.1 := by
    rintro ⟨n, k⟩ he
    obtain ⟨c, hc, h1, h2, _⟩ := lastCall_mem calls t n k ((mem_resourceList calls t n k).1 ((mem_flat _ _ _ _).2 ⟨d, hr, he⟩))
    have := h c hc
    rw [h1, h2] at this
    exact this
  constructor
  · intro hne
    simp only [ne_eq, List.map_eq_nil_iff] at hne
    cases hd : d with
    | nil => exact absurd hd hne
    | cons e d' => exact (key e (by rw [hd]; simp)).1
  · intro n hn
    obtain ⟨e, he, rfl⟩ := List.mem_map.1 hn
    exact (key e he).2

theorem addresource_nonempty {κ : Type} (r : List (List Char × List (List Char × κ))) (t n : List Char) (k : κ) (h : ∀ e ∈ r, e.2 ≠ []) : ∀ e ∈ addresource r t n k, e.2 ≠ [] := by
  intro e he
  unfold addresource at he
  split at he
  · obtain ⟨x, hx, rfl⟩ := List.mem_map.1 he
    by_cases hn : x.1 = t
    · rw [if_pos hn]
      intro hh
      have := (mem_put x.2 n n k k).2 (.inl ⟨rfl, rfl⟩)
      simp only at hh
      rw [hh] at this; simp at this
    · rw [if_neg hn]; exact h x hx
  · rcases List.mem_append.1 he with he | he
    · exact h e he
    · rw [List.mem_singleton] at he; subst he; simp

theorem resources_nonempty (calls : List (Call σ)) : ∀ e ∈ resourceList calls, e.2 ≠ [] := by
  have h : ∀ e ∈ resources calls, e.2 ≠ [] := by
    unfold resources
    induction calls using List.reverseRecOn with
    | nil => simp
    | append_singleton cs c ih =>
      rw [List.foldl_append, List.foldl_cons, List.foldl_nil]
      exact addresource_nonempty _ _ _ _ ih
  intro e he
  unfold resourceList sorted at he
  obtain ⟨x, hx, rfl⟩ := List.mem_map.1 he
  have := h x ((List.mem_insertionSort _).1 hx)
  intro hh
  apply this
  simp only at hh
  exact List.eq_nil_of_length_eq_zero (by rw [← List.length_insertionSort (fun a b => le a.1 b.1) x.2, hh]; rfl)

theorem resourceList_clean (calls : List (Call σ)) (h : ∀ c ∈ calls, Name c.type ∧ Name c.name) :
    ∀ g ∈ (resourceList calls).map (fun r => (r.1, r.2.map Prod.fst)), Name g.1 ∧ ∀ n ∈ g.2, Name n := by
  intro g hg
  obtain ⟨h1, h2⟩ := resourceList_names calls h g hg
  refine ⟨h1 ?_, h2⟩
  obtain ⟨r, hr, rfl⟩ := List.mem_map.1 hg
  simpa using resources_nonempty calls r hr

theorem procsets_mem (calls : List (Call σ)) : ∀ p ∈ procsets calls, p = "PDF".toList ∨ ∃ c ∈ calls, c.procset = some p := by
  unfold procsets
  have : ∀ (l acc : List (List Char)), ∀ p ∈ l.foldl (fun l p => if p ∈ l then l else l ++ [p]) acc, p ∈ acc ∨ p ∈ l := by
    intro l
    induction l with
    | nil => intro acc p hp; exact .inl hp
    | cons x l ih =>
      intro acc p hp
      rw [List.foldl_cons] at hp
      rcases ih _ p hp with h | h
      · split at h
        · exact .inl h
        · rcases List.mem_append.1 h with h | h
          · exact .inl h
          · rw [List.mem_singleton] at h; exact .inr (by simp [h])
      · exact .inr (by simp [h])
  intro p hp
  rcases this _ _ p hp with h | h
  · exact .inl (by simpa using h)
  · rw [List.mem_filterMap] at h
    exact .inr h

theorem resourceLines_plain (calls : List (Call σ)) (nos : List ℕ) (h : ∀ c ∈ calls, Name c.type ∧ Name c.name ∧ ∀ s, c.procset = some s → Plain s) :
    ∀ l ∈ resourceLines calls nos, '\n' ∉ l := by
  intro l hl
  unfold resourceLines at hl
  simp only [List.cons_append, List.nil_append, List.mem_cons, List.mem_append, List.not_mem_nil, or_false] at hl
  rcases hl with rfl | rfl | hl | rfl
  · decide
  · refine plain_append _ _ (plain_append _ _ (by decide) ?_) (by decide)
    intro hm
    obtain ⟨p, hp, hm⟩ := List.mem_flatMap.1 hm
    rw [List.mem_insertionSort] at hp
    revert hm
    refine plain_append _ _ (by decide) ?_
    rcases procsets_mem calls p hp with rfl | ⟨c, hc, hcp⟩
    · decide
    · exact (h c hc).2.2 p hcp
  · exact groups_plain _ _ (resourceList_clean calls fun c hc => ⟨(h c hc).1, (h c hc).2.1⟩) l hl
  · decide

theorem field_stop (key : List Char) (ls : List (List Char)) : field key ("/Resources <<".toList :: ls) = none := by
  rw [field, if_pos (.inr rfl)]

/-! ## The page tree -/

theorem words_ne (s : List Char) : words s ≠ [] := by
  cases s with
  | nil => simp [words]
  | cons c s =>
    rw [words]
    split
    · simp
    · split <;> simp

theorem words_append (a b : List Char) (h : ' ' ∉ a) : words (a ++ ' ' :: b) = a :: words b := by
  induction a with
  | nil => simp [words]
  | cons c a ih =>
    rw [List.cons_append, words, if_neg (fun e => h (by simp [e])), ih fun hm => h (by simp [hm])]

theorem words_single (a : List Char) (h : ' ' ∉ a) : words a = [a] := by
  induction a with
  | nil => rfl
  | cons c a ih => rw [words, if_neg (fun e => h (by simp [e])), ih fun hm => h (by simp [hm])]

theorem str_no_sp (n : ℕ) : ' ' ∉ str n := fun h => by have := str_digits n _ h; revert this; decide

theorem refs3_words (nos : List ℕ) : refs3 (words (List.intercalate " ".toList (nos.map fun no => str no ++ " 0 R".toList))) = nos := by
  induction nos with
  | nil => rfl
  | cons n nos ih =>
    cases nos with
    | nil =>
      have : List.intercalate " ".toList ([n].map fun no => str no ++ " 0 R".toList) = str n ++ ' ' :: ("0".toList ++ ' ' :: "R".toList) := by
        simp [List.intercalate]
      rw [this, words_append _ _ (str_no_sp n), words_append _ _ (by decide), words_single _ (by decide), refs3, refs3]
      have := number_str n [] (by simp)
      rw [List.append_nil] at this
      rw [this]
      · rintro a b c r h; simp at h
    | cons m nos =>
      have : List.intercalate " ".toList ((n :: m :: nos).map fun no => str no ++ " 0 R".toList) =
          str n ++ ' ' :: ("0".toList ++ ' ' :: ("R".toList ++ ' ' :: List.intercalate " ".toList ((m :: nos).map fun no => str no ++ " 0 R".toList))) := by
        simp [List.intercalate, List.intersperse]
      rw [this, words_append _ _ (str_no_sp n), words_append _ _ (by decide), words_append _ _ (by decide), refs3, ih]
      have := number_str n [] (by simp)
      rw [List.append_nil] at this
      rw [this]

theorem kids_clean (nos : List ℕ) : ∀ c ∈ List.intercalate " ".toList (nos.map fun no => str no ++ " 0 R".toList), c = ' ' ∨ c = 'R' ∨ isDigit c = true := by
  induction nos with
  | nil => simp [List.intercalate]
  | cons n nos ih =>
    intro c hc
    have hone : ∀ c ∈ str n ++ " 0 R".toList, c = ' ' ∨ c = 'R' ∨ isDigit c = true := by
      intro c hc
      rcases List.mem_append.1 hc with hc | hc
      · exact .inr (.inr (str_digits n c hc))
      · have hall : ∀ c ∈ " 0 R".toList, c = ' ' ∨ c = 'R' ∨ isDigit c = true := by decide
        exact hall c hc
    cases nos with
    | nil =>
      have : List.intercalate " ".toList ([n].map fun no => str no ++ " 0 R".toList) = str n ++ " 0 R".toList := by simp [List.intercalate]
      rw [this] at hc
      exact hone c hc
    | cons m nos =>
      have : List.intercalate " ".toList ((n :: m :: nos).map fun no => str no ++ " 0 R".toList) =
          (str n ++ " 0 R".toList) ++ ' ' :: List.intercalate " ".toList ((m :: nos).map fun no => str no ++ " 0 R".toList) := by
        simp [List.intercalate, List.intersperse]
      rw [this] at hc
      rcases List.mem_append.1 hc with hc | hc
      · exact hone c hc
      · rcases List.mem_cons.1 hc with rfl | hc
        · exact .inl rfl
        · exact ih c hc

/-- The number of the object with a key. -/
abbrev no (zlib : Option ℤ → List Char → List Char) (o : Options) (info : List Char) (ps : List (Page σ)) (k : Key σ) : Option ℕ :=
  getrefno (registered (regs zlib o info ps)) k

section
variable (zlib : Option ℤ → List Char → List Char) (o : Options) (head info : List Char) (ps : List (Page σ)) (hok : Ok ps) (file : List Char)
  (h : pdf zlib o head info ps = some file) (hlen : file.length < 10 ^ 10)
include hok h hlen

omit hok hlen in
theorem pdf_write : write (registered (regs zlib o info ps)) head .catalog .info = some file := by
  unfold pdf at h
  split at h
  · exact h
  · cases h

omit hok h hlen in
theorem reg_unique : Unique (registered (regs zlib o info ps)) := (registered_spec _).1

theorem read_tree : ∃ tree, no zlib o info ps .pages = some tree ∧ readTree file = some tree := by
  have hw := pdf_write zlib o head info ps file h
  obtain ⟨root, h1, h2⟩ := write_root _ head Key.catalog Key.info file hw hlen
  obtain ⟨x, nos, rest, hx, hk, hn, hd⟩ := write_obj _ (reg_unique zlib o info ps) head .catalog .info file hw hlen .catalog root h1
  have := only_catalog zlib o info ps hok x hx hk
  subst this
  have hf := mapM_forall _ _ _ hn
  cases hf with
  | cons hp hr =>
    rename_i tree ns
    refine ⟨tree, hp, ?_⟩
    unfold readTree
    have hb : (catalogObj o (has .form ps) : Obj (Key σ)).body (tree :: ns) = txt (["<<".toList, "/Type /Catalog".toList, "/Pages ".toList ++ str tree ++ " 0 R".toList] ++
      ((if has .form ps then ["/AcroForm ".toList ++ str (ns.getD 0 0) ++ " 0 R".toList] else []) ++ (if o.fullscreen then ["/PageMode /FullScreen".toList] else []) ++ [">>".toList])) := by
      simp only [catalogObj, List.getD_cons_zero, List.getD_cons_succ, List.append_assoc]
    rw [hb, List.append_assoc] at hd
    have hls : ∀ l ∈ ["<<".toList, "/Type /Catalog".toList, "/Pages ".toList ++ str tree ++ " 0 R".toList] ++
      ((if has .form ps then ["/AcroForm ".toList ++ str (ns.getD 0 0) ++ " 0 R".toList] else []) ++ (if o.fullscreen then ["/PageMode /FullScreen".toList] else []) ++ [">>".toList]),
        '\n' ∉ l := by
      have p1 : '\n' ∉ "/Pages ".toList ++ str tree ++ " 0 R".toList := plain_append _ _ (plain_append _ _ (by decide) (str_no_nl _)) (by decide)
      have p2 : '\n' ∉ "/AcroForm ".toList ++ str (ns.getD 0 0) ++ " 0 R".toList := plain_append _ _ (plain_append _ _ (by decide) (str_no_nl _)) (by decide)
      intro l hl
      rcases List.mem_append.1 hl with hl | hl
      · simp only [List.mem_cons, List.not_mem_nil, or_false] at hl
        rcases hl with rfl | rfl | rfl
        · decide
        · decide
        · exact p1
      · rcases List.mem_append.1 hl with hl | hl
        · rcases List.mem_append.1 hl with hl | hl
          · split at hl
            · rw [List.mem_singleton] at hl; subst hl; exact p2
            · simp at hl
          · split at hl
            · rw [List.mem_singleton] at hl; subst hl; decide
            · simp at hl
        · rw [List.mem_singleton] at hl; subst hl; decide
    have hro := readObj_of file root _ _ _ rfl hls hd
    rw [h2]
    simp only [Option.bind_eq_bind, Option.bind_some]
    rw [hro]
    simp only [Option.bind_some, List.cons_append, List.nil_append]
    rw [field_skip _ _ _ (by decide) (by decide), field_skip _ _ _ (by decide) (by decide), List.append_assoc, field_hit _ _ _ (by simp) rfl, Option.map_some]
    congr 1
    exact number_str tree _ (by intro c hc; simp at hc; subst hc; decide)

theorem read_pages : ∃ kids, readKids file = some kids ∧ readCount file = some ps.length ∧
    List.Forall₂ (fun k n => no zlib o info ps k = some n) ((List.range ps.length).map Key.page) kids := by
  have hw := pdf_write zlib o head info ps file h
  obtain ⟨tree, h1, h2⟩ := read_tree zlib o head info ps hok file h hlen
  obtain ⟨x, nos, rest, hx, hk, hn, hd⟩ := write_obj _ (reg_unique zlib o info ps) head .catalog .info file hw hlen .pages tree h1
  have := only_pages zlib o info ps hok x hx hk
  subst this
  have hf := mapM_forall _ _ _ hn
  refine ⟨nos, ?_, ?_, hf⟩
  all_goals
    have hb : (pagesObj ps.length : Obj (Key σ)).body nos = txt ["<<".toList, "/Type /Pages".toList,
      "/Kids [".toList ++ (List.intercalate " ".toList (nos.map fun no => str no ++ " 0 R".toList) ++ "]".toList), "/Count ".toList ++ str ps.length, ">>".toList] := by
        simp only [pagesObj, List.append_assoc]
    rw [hb, List.append_assoc] at hd
    have hls : ∀ l ∈ ["<<".toList, "/Type /Pages".toList,
        "/Kids [".toList ++ (List.intercalate " ".toList (nos.map fun no => str no ++ " 0 R".toList) ++ "]".toList), "/Count ".toList ++ str ps.length, ">>".toList], '\n' ∉ l := by
      intro l hl
      simp only [List.mem_cons, List.not_mem_nil, or_false] at hl
      rcases hl with rfl | rfl | rfl | rfl | rfl
      · decide
      · decide
      · refine plain_append _ _ (by decide) (plain_append _ _ ?_ (by decide))
        intro hm
        have := kids_clean nos _ hm
        revert this; decide
      · exact plain_append _ _ (by decide) (str_no_nl _)
      · decide
    have hro := readObj_of file tree _ _ _ rfl hls hd
  · unfold readKids
    rw [h2]
    simp only [Option.bind_eq_bind, Option.bind_some]
    rw [hro]
    simp only [Option.bind_some, List.cons_append, List.nil_append]
    rw [field_skip _ _ _ (by decide) (by decide), field_skip _ _ _ (by decide) (by decide), field_hit _ _ _ (by simp) rfl]
    simp only [Option.bind_some, Option.some.injEq]
    have hdrop : ∀ r : List Char, ("/Kids [".toList ++ r).drop "/Kids [".toList.length = r := fun r => rfl
    rw [hdrop, List.takeWhile_append_of_pos]
    · have : "]".toList.takeWhile (fun c => decide (c ≠ ']')) = [] := by decide
      rw [this, List.append_nil, refs3_words]
    · intro c hc
      rcases kids_clean nos c hc with rfl | rfl | hd
      · decide
      · decide
      · simp only [ne_eq, decide_not, Bool.not_eq_true', decide_eq_false_iff_not]
        rintro rfl
        revert hd; decide
  · unfold readCount
    rw [h2]
    simp only [Option.bind_eq_bind, Option.bind_some]
    rw [hro]
    simp only [Option.bind_some, List.cons_append, List.nil_append]
    rw [field_skip _ _ _ (by decide) (by decide), field_skip _ _ _ (by decide) (by decide), field_skip _ _ _ (by simp) rfl, field_hit _ _ _ (by simp) rfl, Option.map_some]
    congr 1
    have := number_str ps.length [] (by simp)
    rw [List.append_nil] at this
    exact this

/-- The lines of a page in front of its resources. -/
def pageTop (o : Options) (annots : Bool) (p : Page σ) (parent an c : ℕ) : List (List Char) :=
  ["<<".toList, "/Type /Page".toList, "/Parent ".toList ++ (str parent ++ " 0 R".toList), "/MediaBox [".toList ++ ((mediabox p).getD [] ++ "]".toList)] ++
    ((if p.bbox.isSome && o.writebbox then ["/CropBox [".toList ++ (p.bbox.getD [] ++ "]".toList)] else []) ++
    ((if p.rotated then ["/Rotate 90".toList] else []) ++
    ((if annots then ["/Annots ".toList ++ (str an ++ " 0 R".toList)] else []) ++
    ["/Contents ".toList ++ (str c ++ " 0 R".toList)])))

/-- A page as the reader sees it. -/
theorem read_page (i : ℕ) (p : Page σ) (hi : ps[i]? = some p) : ∃ n tree c an ns rest, no zlib o info ps (.page i) = some n ∧ no zlib o info ps .pages = some tree ∧
    no zlib o info ps (.content i) = some c ∧
    List.Forall₂ (fun k n => no zlib o info ps k = some n) ((resourceList p.calls).flatMap fun r => r.2.map Prod.snd) ns ∧
    (has .annots ps = true → no zlib o info ps .annots = some an) ∧
    readObj file n = some (pageTop o (has .annots ps) p tree an c ++ (resourceLines p.calls ns ++ (">>".toList :: rest))) := by
  have hw := pdf_write zlib o head info ps file h
  have hpm : p ∈ ps := List.mem_of_getElem? hi
  have hreg : Key.page i ∈ (registered (regs zlib o info ps)).map Obj.key := by
    rw [(registered_spec _).2]
    exact ⟨_, mem_regs_page zlib o info ps i p hi, by simp [Reg.keys, pageObj_key]⟩
  obtain ⟨n, hn⟩ := Option.isSome_iff_exists.1 ((getrefno_isSome _ _).2 hreg)
  obtain ⟨x, nos, rest, hx, hk, hns, hd⟩ := write_obj _ (reg_unique zlib o info ps) head .catalog .info file hw hlen (.page i) n hn
  have := only_page zlib o info ps hok i p hi x hx hk
  subst this
  have hf := mapM_forall _ _ _ hns
  obtain ⟨tree, an, c, ns, h1, h2, h3, h4, hb⟩ : ∃ tree an c ns, no zlib o info ps .pages = some tree ∧ (has .annots ps = true → no zlib o info ps .annots = some an) ∧
      no zlib o info ps (.content i) = some c ∧
      List.Forall₂ (fun k n => no zlib o info ps k = some n) ((resourceList p.calls).flatMap fun r => r.2.map Prod.snd) ns ∧
      (pageObj o (has .annots ps) i p).body nos = txt (pageTop o (has .annots ps) p tree an c ++ (resourceLines p.calls ns ++ [">>".toList])) := by
    cases ha : has .annots ps with
    | false =>
      rw [ha] at hf
      simp only [pageObj, Bool.false_eq_true, if_false, List.append_nil, List.cons_append, List.nil_append] at hf
      cases hf with
      | cons f1 f2 =>
        cases f2 with
        | cons f3 f4 =>
          refine ⟨_, 0, _, _, f1, fun hh => by simp at hh, f3, f4, ?_⟩
          simp only [pageObj, pageTop, Bool.false_eq_true, if_false, List.append_nil, List.cons_append, List.nil_append, List.getD_cons_zero, List.getD_cons_succ, List.append_assoc,
            List.drop_succ_cons, List.drop_zero]
    | true =>
      rw [ha] at hf
      simp only [pageObj, if_true, List.append_nil, List.cons_append, List.nil_append] at hf
      cases hf with
      | cons f1 f2 =>
        cases f2 with
        | cons f5 f6 =>
          cases f6 with
          | cons f3 f4 =>
            refine ⟨_, _, _, _, f1, fun _ => f5, f3, f4, ?_⟩
            simp only [pageObj, pageTop, if_true, List.append_nil, List.cons_append, List.nil_append, List.getD_cons_zero, List.getD_cons_succ, List.append_assoc,
              List.drop_succ_cons, List.drop_zero]
  have hls : ∀ l ∈ pageTop o (has .annots ps) p tree an c ++ (resourceLines p.calls ns ++ [">>".toList]), '\n' ∉ l := by
    have pm : '\n' ∉ (mediabox p).getD [] := by
      cases hp : p.paper with
      | none =>
        cases hbb : p.bbox with
        | none => simp [mediabox, hp, hbb]
        | some b => simpa [mediabox, hp, hbb, Plain] using hok.bbox p hpm b hbb
      | some wh =>
        obtain ⟨w, hh⟩ := wh
        obtain ⟨q1, q2⟩ := hok.paper p hpm w hh hp
        have e : (mediabox p).getD [] = "0 0 ".toList ++ w ++ " ".toList ++ hh := by simp only [mediabox, hp, Option.getD_some]
        rw [e]
        exact plain_append _ _ (plain_append _ _ (plain_append _ _ (by decide) q1) (by decide)) q2
    have pb : '\n' ∉ p.bbox.getD [] := by
      cases hbb : p.bbox with
      | none => simp
      | some b => exact hok.bbox p hpm b hbb
    have ps' : ∀ (a : List Char) (m : ℕ), '\n' ∉ a → '\n' ∉ a ++ (str m ++ " 0 R".toList) := fun a m ha => plain_append _ _ ha (plain_append _ _ (str_no_nl _) (by decide))
    intro l hl
    rcases List.mem_append.1 hl with hl | hl
    · unfold pageTop at hl
      rcases List.mem_append.1 hl with hl | hl
      · simp only [List.mem_cons, List.not_mem_nil, or_false] at hl
        rcases hl with rfl | rfl | rfl | rfl
        · decide
        · decide
        · exact ps' _ _ (by decide)
        · exact plain_append _ _ (by decide) (plain_append _ _ pm (by decide))
      · rcases List.mem_append.1 hl with hl | hl
        · split at hl
          · rw [List.mem_singleton] at hl; subst hl; exact plain_append _ _ (by decide) (plain_append _ _ pb (by decide))
          · simp at hl
        · rcases List.mem_append.1 hl with hl | hl
          · split at hl
            · rw [List.mem_singleton] at hl; subst hl; decide
            · simp at hl
          · rcases List.mem_append.1 hl with hl | hl
            · split at hl
              · rw [List.mem_singleton] at hl; subst hl; exact ps' _ _ (by decide)
              · simp at hl
            · rw [List.mem_singleton] at hl; subst hl; exact ps' _ _ (by decide)
    · rcases List.mem_append.1 hl with hl | hl
      · exact resourceLines_plain p.calls ns (hok.calls p hpm) l hl
      · rw [List.mem_singleton] at hl; subst hl; decide
  rw [hb, List.append_assoc] at hd
  have hro := readObj_of file n _ _ _ rfl hls hd
  refine ⟨n, tree, c, an, ns, lines ("endobj\n".toList ++ rest), hn, h1, h3, h4, h2, ?_⟩
  rw [hro]
  simp only [List.append_assoc, List.cons_append, List.nil_append]

omit hok h hlen in
theorem isPrefixOf_append (p s : List Char) : p.isPrefixOf (p ++ s) = true := by
  rw [List.isPrefixOf_iff_prefix]; exact List.prefix_append _ _

omit hok h hlen in
theorem behind_hit (c : Char) (p s : List Char) (q : List Char) (hq : q = c :: p := by rfl) : behind q (q ++ s) = some s := by
  subst hq
  have hp : (c :: p).isPrefixOf (c :: (p ++ s)) = true := isPrefixOf_append (c :: p) s
  rw [List.cons_append, behind, if_pos hp, ← List.cons_append, List.drop_left]

omit hok h hlen in
theorem behind_skip (p : List Char) (a s : List Char) (c : Char) (hp : p.head? = some c) (ha : c ∉ a) : behind p (a ++ s) = behind p s := by
  induction a with
  | nil => rfl
  | cons x a ih =>
    rw [List.cons_append, behind]
    have : p.isPrefixOf (x :: (a ++ s)) = false := by
      cases p with
      | nil => simp at hp
      | cons y p =>
        simp at hp
        subst hp
        have hxy : y ≠ x := fun e => ha (by simp [e])
        simp [List.isPrefixOf, hxy]
    rw [this]
    simp only [Bool.false_eq_true, if_false]
    exact ih fun hm => ha (by simp [hm])

/-- The content of a page as the reader sees it. -/
theorem read_content (i : ℕ) (p : Page σ) (hi : ps[i]? = some p) : ∃ c, no zlib o info ps (.content i) = some c ∧
    readStream file c = some (contentData zlib o p.content) ∧
    readPage file c "/Filter ".toList = if o.compress then some "/FlateDecode".toList else none := by
  have hw := pdf_write zlib o head info ps file h
  obtain ⟨_, _, c, _, _, _, _, _, hc, _⟩ := read_page zlib o head info ps hok file h hlen i p hi
  obtain ⟨x, nos, rest, hx, hk, hns, hd⟩ := write_obj _ (reg_unique zlib o info ps) head .catalog .info file hw hlen (.content i) c hc
  have := only_content zlib o info ps hok i p hi x hx hk
  subst this
  refine ⟨c, hc, ?_⟩
  have hb : (contentObj zlib o i p.content : Obj (Key σ)).body nos = txt (["<<".toList, "/Length ".toList ++ str (contentData zlib o p.content).length] ++
      ((if o.compress then ["/Filter /FlateDecode".toList] else []) ++ [">>".toList, "stream".toList])) ++ (contentData zlib o p.content ++ "endstream\n".toList) := by
    simp only [contentObj, List.append_assoc]
  rw [hb] at hd
  generalize contentData zlib o p.content = data at hd ⊢
  have hd1 : file.drop (number (xrefEntry file (readXref file) c)) = str c ++ " 0 obj\n".toList ++ txt (["<<".toList, "/Length ".toList ++ str data.length] ++
      ((if o.compress then ["/Filter /FlateDecode".toList] else []) ++ [">>".toList, "stream".toList])) ++ (data ++ "endstream\n".toList ++ ("endobj\n".toList ++ rest)) := by
    rw [hd]; simp only [List.append_assoc]
  have hls : ∀ l ∈ ["<<".toList, "/Length ".toList ++ str data.length] ++ ((if o.compress then ["/Filter /FlateDecode".toList] else []) ++ [">>".toList, "stream".toList]), '\n' ∉ l := by
    intro l hl
    rcases List.mem_append.1 hl with hl | hl
    · simp only [List.mem_cons, List.not_mem_nil, or_false] at hl
      rcases hl with rfl | rfl
      · decide
      · exact plain_append _ _ (by decide) (str_no_nl _)
    · rcases List.mem_append.1 hl with hl | hl
      · split at hl
        · rw [List.mem_singleton] at hl; subst hl; decide
        · simp at hl
      · simp only [List.mem_cons, List.not_mem_nil, or_false] at hl
        rcases hl with rfl | rfl <;> decide
  have hro := readObj_of file c _ _ _ rfl hls hd1
  have hnum : number (str data.length) = data.length := by
    have := number_str data.length [] (by simp)
    rwa [List.append_nil] at this
  constructor
  · unfold readStream
    rw [hro]
    simp only [Option.bind_eq_bind, Option.bind_some, List.cons_append, List.nil_append]
    rw [field_skip _ _ _ (by decide) (by decide), field_hit _ _ _ (by simp) rfl, hd1]
    have hl : number (("/Length ".toList ++ str data.length).drop "/Length ".toList.length) = data.length := hnum
    rw [Option.map_some, hl]
    simp only [Option.bind_some]
    have hsplit : str c ++ " 0 obj\n".toList ++ txt (["<<".toList, "/Length ".toList ++ str data.length] ++
        ((if o.compress then ["/Filter /FlateDecode".toList] else []) ++ [">>".toList, "stream".toList])) ++ (data ++ "endstream\n".toList ++ ("endobj\n".toList ++ rest)) =
        (str c ++ " 0 obj\n<<\n/Length ".toList ++ str data.length ++ "\n".toList ++ (if o.compress then "/Filter /FlateDecode\n".toList else [])) ++
          (">>\nstream\n".toList ++ (data ++ ("endstream\n".toList ++ ("endobj\n".toList ++ rest)))) := by
      cases o.compress <;> simp [txt]
    rw [hsplit, behind_skip _ _ _ '>' rfl]
    · have hbeh : behind ">>\nstream\n".toList (">>\nstream\n".toList ++ (data ++ ("endstream\n".toList ++ ("endobj\n".toList ++ rest)))) =
          some (data ++ ("endstream\n".toList ++ ("endobj\n".toList ++ rest))) := by
        exact behind_hit (Char.ofNat 62) ">\nstream\n".toList _ _
      rw [hbeh]
      simp only [Option.bind_some]
      rw [List.drop_left, if_pos (isPrefixOf_append _ _), List.take_left]
    · intro hm
      rcases List.mem_append.1 hm with hm | hm
      · rcases List.mem_append.1 hm with hm | hm
        · rcases List.mem_append.1 hm with hm | hm
          · rcases List.mem_append.1 hm with hm | hm
            · have := str_digits c _ hm; revert this; decide
            · revert hm; decide
          · have := str_digits data.length _ hm; revert this; decide
        · revert hm; decide
      · split at hm
        · revert hm; decide
        · simp at hm
  · unfold readPage
    rw [hro]
    simp only [Option.bind_eq_bind, Option.bind_some, List.cons_append, List.nil_append]
    rw [field_skip _ _ _ (by decide) (by decide), field_skip _ _ _ (by simp) rfl]
    cases o.compress
    · simp [field]
    · simp only [if_true, List.cons_append, List.nil_append]
      rw [field_hit _ _ _ (by decide) (by decide)]
      rfl

end

/-! ## Theorems -/

/-- What a reader should find for a page. -/
structure IsPage (o : Options) (p : Page σ) (file : List Char) (n : ℕ) : Prop where
  type : readPage file n "/Type /Page".toList = some []
  parent : (readPage file n "/Parent ".toList).map number = readTree file
  paper : ∀ w h, p.paper = some (w, h) → readPage file n "/MediaBox [".toList = some ("0 0 ".toList ++ w ++ " ".toList ++ h ++ "]".toList)
  noPaper : p.paper = none → ∃ b, p.bbox = some b ∧ readPage file n "/MediaBox [".toList = some (b ++ "]".toList)
  crop : readPage file n "/CropBox [".toList = if o.writebbox then p.bbox.map (· ++ "]".toList) else none
  rotate : readPage file n "/Rotate ".toList = if p.rotated then some "90".toList else none

/-- A stream with the content asked for: as it is, or compressed. -/
def HasContent (zlib : Option ℤ → List Char → List Char) (o : Options) (content file : List Char) (n : ℕ) : Prop :=
  ∃ c s, (readPage file n "/Contents ".toList).map number = some c ∧ readStream file c = some s ∧
    (o.compress = false → readPage file c "/Filter ".toList = none ∧ s = content) ∧
    (o.compress = true → readPage file c "/Filter ".toList = some "/FlateDecode".toList ∧ ∀ inflate : List Char → List Char, (∀ l t, inflate (zlib l t) = t) → inflate s = content)

section
variable (zlib : Option ℤ → List Char → List Char) (o : Options) (head info : List Char) (ps : List (Page σ)) (hok : Ok ps) (file : List Char)
  (h : pdf zlib o head info ps = some file) (hlen : file.length < 10 ^ 10)
include hok h hlen

omit hok h hlen in
theorem no_inj (k k' : Key σ) (n : ℕ) (h1 : no zlib o info ps k = some n) (h2 : no zlib o info ps k' = some n) : k = k' := by
  obtain ⟨i, x, e1, e2, e3⟩ := (getrefno_spec _ (reg_unique zlib o info ps) k n).1 h1
  obtain ⟨j, y, f1, f2, f3⟩ := (getrefno_spec _ (reg_unique zlib o info ps) k' n).1 h2
  have : i = j := by omega
  subst this
  rw [e2] at f2; cases f2
  rw [← e3, f3]

/-- **C152.** A reader which follows the cross-reference table, the trailer and the page tree finds the pages of the document: as many as there are, each once, in their
order, with their sizes, orientations and contents. -/
theorem pdf_pages : ∃ kids, readKids file = some kids ∧ readCount file = some ps.length ∧ kids.length = ps.length ∧ kids.Nodup ∧
    ∀ (i : ℕ) p, ps[i]? = some p → ∃ n, kids[i]? = some n ∧ IsPage o p file n ∧ HasContent zlib o p.content file n := by
  obtain ⟨kids, h1, h2, h3⟩ := read_pages zlib o head info ps hok file h hlen
  have hl : kids.length = ps.length := by rw [← h3.length_eq]; simp
  have hkid : ∀ i (hi : i < kids.length), no zlib o info ps (.page i) = some kids[i] := by
    intro i hi
    have := List.Forall₂.get h3 (i := i) (by simpa [← hl] using hi) hi
    simpa using this
  refine ⟨kids, h1, h2, hl, ?_, ?_⟩
  · rw [List.nodup_iff_injective_get]
    rintro ⟨i, hi⟩ ⟨j, hj⟩ he
    simp only [List.get_eq_getElem] at he
    have e1 := hkid i hi
    have e2 := hkid j hj
    rw [he] at e1
    have := no_inj zlib o info ps _ _ _ e1 e2
    cases this; rfl
  · intro i p hi
    obtain ⟨n, tree, c, an, ns, rest, g1, g2, g3, g4, g5, g6⟩ := read_page zlib o head info ps hok file h hlen i p hi
    have hil : i < kids.length := by rw [hl]; exact (List.getElem?_eq_some_iff.1 hi).1
    have hn := hkid i hil
    rw [g1] at hn
    refine ⟨n, by rw [List.getElem?_eq_getElem hil]; exact hn.symm, ?_, ?_⟩
    · obtain ⟨t, t1, t2⟩ := read_tree zlib o head info ps hok file h hlen
      rw [g2] at t1
      cases t1
      have hmb : ∃ m, mediabox p = some m := by
        unfold pdf at h
        split at h
        · rename_i hall
          have := List.all_eq_true.1 hall p (List.mem_of_getElem? hi)
          exact Option.isSome_iff_exists.1 this
        · cases h
      obtain ⟨m, hm⟩ := hmb
      have hmedia : readPage file n "/MediaBox [".toList = some (m ++ "]".toList) := by
        unfold readPage
        rw [g6]
        simp only [Option.bind_eq_bind, Option.bind_some, pageTop, List.cons_append, List.nil_append]
        rw [field_skip _ _ _ (by decide) (by decide), field_skip _ _ _ (by decide) (by decide), field_skip _ _ _ (by simp) rfl, field_hit _ _ _ (by simp) rfl, hm]
        rfl
      refine ⟨?_, ?_, ?_, ?_, ?_, ?_⟩
      · unfold readPage
        rw [g6]
        simp only [Option.bind_eq_bind, Option.bind_some, pageTop, List.cons_append, List.nil_append]
        rw [field_skip _ _ _ (by decide) (by decide), field_hit _ _ _ (by decide) (by decide)]
        rfl
      · unfold readPage
        rw [g6, t2]
        simp only [Option.bind_eq_bind, Option.bind_some, pageTop, List.cons_append, List.nil_append]
        rw [field_skip _ _ _ (by decide) (by decide), field_skip _ _ _ (by decide) (by decide), field_hit _ _ _ (by simp) rfl, Option.map_some]
        congr 1
        exact number_str tree _ (by intro c hc; simp at hc; subst hc; decide)
      · intro w hh hp
        rw [hmedia]
        rw [mediabox, hp] at hm
        simp only [Option.some.injEq] at hm
        rw [← hm]
      · intro hp
        rw [mediabox, hp] at hm
        exact ⟨m, hm, hmedia⟩
      · unfold readPage
        rw [g6]
        simp only [Option.bind_eq_bind, Option.bind_some, pageTop, List.cons_append, List.nil_append]
        rw [field_skip _ _ _ (by decide) (by decide), field_skip _ _ _ (by decide) (by decide), field_skip _ _ _ (by simp) rfl, field_skip _ _ _ (by simp) rfl]
        have hnone : field "/CropBox [".toList ((if p.rotated = true then ["/Rotate 90".toList] else []) ++
            ((if has Key.annots ps = true then ["/Annots ".toList ++ (str an ++ " 0 R".toList)] else []) ++
            ["/Contents ".toList ++ (str c ++ " 0 R".toList)]) ++ (resourceLines p.calls ns ++ ">>".toList :: rest)) = none := by
          cases p.rotated <;> cases has Key.annots ps <;>
            simp only [Bool.false_eq_true, if_false, if_true, List.nil_append, List.cons_append, resourceLines] <;>
            repeat (first | rw [field_stop] | rw [field_skip _ _ _ (by simp) rfl])
        cases hw : o.writebbox
        · simp only [Bool.and_false, Bool.false_eq_true, if_false, List.nil_append]
          exact hnone
        · cases hb : p.bbox with
          | none =>
            simp only [Option.isSome_none, Bool.false_and, Bool.false_eq_true, if_false, List.nil_append, Option.map_none, if_true]
            exact hnone
          | some b =>
            simp only [Option.isSome_some, Bool.and_self, if_true, List.cons_append, List.nil_append, Option.getD_some, Option.map_some]
            rw [field_hit _ _ _ (by simp) rfl]
            rfl
      · unfold readPage
        rw [g6]
        simp only [Option.bind_eq_bind, Option.bind_some, pageTop, List.cons_append, List.nil_append]
        rw [field_skip _ _ _ (by decide) (by decide), field_skip _ _ _ (by decide) (by decide), field_skip _ _ _ (by simp) rfl, field_skip _ _ _ (by simp) rfl]
        cases (p.bbox.isSome && o.writebbox) <;> cases p.rotated <;> cases has Key.annots ps <;>
            simp only [Bool.false_eq_true, if_false, if_true, List.nil_append, List.cons_append, resourceLines] <;>
            repeat (first | rw [field_stop] | (rw [field_hit _ _ _ (by simp) rfl]; rfl) | rw [field_skip _ _ _ (by simp) rfl])
    · obtain ⟨c', c1, c2, c3⟩ := read_content zlib o head info ps hok file h hlen i p hi
      rw [g3] at c1
      cases c1
      refine ⟨c, _, ?_, c2, ?_, ?_⟩
      · unfold readPage
        rw [g6]
        simp only [Option.bind_eq_bind, Option.bind_some, pageTop, List.cons_append, List.nil_append]
        rw [field_skip _ _ _ (by decide) (by decide), field_skip _ _ _ (by decide) (by decide), field_skip _ _ _ (by simp) rfl, field_skip _ _ _ (by simp) rfl]
        have hnum : number (str c ++ " 0 R".toList) = c := number_str c _ (by intro c hc; simp at hc; subst hc; decide)
        cases (p.bbox.isSome && o.writebbox) <;> cases p.rotated <;> cases has Key.annots ps <;>
            simp only [Bool.false_eq_true, if_false, if_true, List.nil_append, List.cons_append] <;>
            repeat (first | (rw [field_hit _ _ _ (by simp) rfl, Option.map_some]; exact congrArg some hnum) | rw [field_skip _ _ _ (by simp) rfl])
      · intro hc
        rw [c3, contentData, hc]
        simp
      · intro hc
        rw [c3, contentData, hc]
        refine ⟨rfl, fun inflate hinf => ?_⟩
        rw [if_pos rfl, hinf]

/-- **C152.** The resources of a page are exactly the names it has used, each for the object which was given this name last. -/
theorem pdf_resources (i : ℕ) (p : Page σ) (hi : ps[i]? = some p) : ∃ n entries, (∃ kids, readKids file = some kids ∧ kids[i]? = some n) ∧ readResources file n = some entries ∧
    ∀ t name m, (t, name, m) ∈ entries ↔ ∃ k, lastCall p.calls t name = some k ∧ no zlib o info ps k = some m := by
  obtain ⟨kids, h1, h2, h3⟩ := read_pages zlib o head info ps hok file h hlen
  have hl : kids.length = ps.length := by rw [← h3.length_eq]; simp
  have hil : i < kids.length := by rw [hl]; exact (List.getElem?_eq_some_iff.1 hi).1
  obtain ⟨n, tree, c, an, ns, rest, g1, g2, g3, g4, g5, g6⟩ := read_page zlib o head info ps hok file h hlen i p hi
  have hn : kids[i]? = some n := by
    have := List.Forall₂.get h3 (i := i) (by simpa [← hl] using hil) hil
    simp only [List.get_eq_getElem, List.getElem_map, List.getElem_range] at this
    rw [g1] at this
    rw [List.getElem?_eq_getElem hil]; exact this.symm
  refine ⟨n, entriesOf ((resourceList p.calls).map fun r => (r.1, r.2.map Prod.fst)) ns, ⟨kids, h1, hn⟩, ?_, ?_⟩
  · unfold readResources
    rw [g6]
    simp only [Option.bind_eq_bind, Option.bind_some, Option.some.injEq]
    have hskip : ∀ (a b : List (List Char)), (∀ l ∈ a, l ≠ "/Resources <<".toList) → (a ++ b).dropWhile (fun l => decide (l ≠ "/Resources <<".toList)) =
        b.dropWhile (fun l => decide (l ≠ "/Resources <<".toList)) := by
      intro a b ha
      rw [List.dropWhile_append_of_pos]
      intro l hl
      exact decide_eq_true (ha l hl)
    rw [hskip]
    · have e : resourceLines p.calls ns ++ ">>".toList :: rest = "/Resources <<".toList :: ("/ProcSet [".toList ++ ((procsets p.calls).insertionSort le).flatMap (fun p => " /".toList ++ p) ++ " ]".toList) ::
          (groupsLines ((resourceList p.calls).map fun r => (r.1, r.2.map Prod.fst)) ns ++ ">>".toList :: (">>".toList :: rest)) := by
        simp only [resourceLines, List.append_assoc, List.cons_append, List.nil_append]
      rw [e, List.dropWhile_cons, if_neg (by simp), List.drop_one, List.tail_cons, readRes, if_neg (by simp)]
      have hns : " <<".toList.isSuffixOf ("/ProcSet [".toList ++ ((procsets p.calls).insertionSort le).flatMap (fun p => " /".toList ++ p) ++ " ]".toList) = false := by
        rw [Bool.eq_false_iff]
        intro hs
        rw [List.isSuffixOf_iff_suffix] at hs
        obtain ⟨a, ha⟩ := hs
        have hx : (a ++ " <".toList) ++ ['<'] = ("/ProcSet [".toList ++ ((procsets p.calls).insertionSort le).flatMap (fun p => " /".toList ++ p) ++ " ".toList) ++ [']'] := by
          simp only [List.append_assoc] at ha ⊢
          exact ha
        have := List.append_inj_right' hx rfl
        exact absurd this (by decide)
      rw [hns]
      simp only [Bool.false_eq_true, if_false]
      exact readRes_groups _ ns _ (resourceList_clean p.calls fun c hc => ⟨(hok.calls p (List.mem_of_getElem? hi) c hc).1, (hok.calls p (List.mem_of_getElem? hi) c hc).2.1⟩)
    · intro l hl
      unfold pageTop at hl
      rcases List.mem_append.1 hl with hl | hl
      · simp only [List.mem_cons, List.not_mem_nil, or_false] at hl
        rcases hl with rfl | rfl | rfl | rfl <;> simp
      · rcases List.mem_append.1 hl with hl | hl
        · split at hl
          · rw [List.mem_singleton] at hl; subst hl; simp
          · simp at hl
        · rcases List.mem_append.1 hl with hl | hl
          · split at hl
            · rw [List.mem_singleton] at hl; subst hl; simp
            · simp at hl
          · rcases List.mem_append.1 hl with hl | hl
            · split at hl
              · rw [List.mem_singleton] at hl; subst hl; simp
              · simp at hl
            · rw [List.mem_singleton] at hl; subst hl; simp
  · intro t name m
    rw [entriesOf_spec _ _ _ g4]
    simp only [mem_resourceList]

/-- **C152.** Every object a page registers is in the file at the place of its number, with the numbers of the objects it refers to. -/
theorem pdf_objects (k : Key σ) (n : ℕ) (hk : no zlib o info ps k = some n) : ∃ x nos rest, x ∈ registered (regs zlib o info ps) ∧ x.key = k ∧
    List.Forall₂ (fun k n => no zlib o info ps k = some n) x.refs nos ∧
    file.drop (number (xrefEntry file (readXref file) n)) = str n ++ " 0 obj\n".toList ++ x.body nos ++ "endobj\n".toList ++ rest := by
  obtain ⟨x, nos, rest, h1, h2, h3, h4⟩ := write_obj _ (reg_unique zlib o info ps) head .catalog .info file (pdf_write zlib o head info ps file h) hlen k n hk
  exact ⟨x, nos, rest, h1, h2, mapM_forall _ _ _ h3, h4⟩

end

/-- All references of all objects are to registered objects. -/
def Closed (ps : List (Page σ)) : Prop :=
  ∀ p ∈ ps, (∀ c ∈ p.calls, ∃ q ∈ ps, ∃ x ∈ q.os, x.key = c.key) ∧ ∀ x ∈ p.os, ∀ k ∈ x.refs, (∃ i p, ps[i]? = some p ∧ k = .page i) ∨ ∃ q ∈ ps, ∃ x ∈ q.os, x.key = k

theorem refs_add_sub {κ : Type} [DecidableEq κ] (P : κ → Prop) (objects : List (Obj κ)) (o : Obj κ) (h : ∀ p ∈ objects, ∀ k ∈ p.refs, P k) (ho : ∀ k ∈ o.refs, P k) :
    ∀ p ∈ add objects o, ∀ k ∈ p.refs, P k := by
  intro p hp k hk
  unfold add at hp
  split at hp
  · obtain ⟨q, hq, rfl⟩ := List.mem_map.1 hp
    split at hk
    · unfold Obj.merge at hk
      split at hk
      · simp only at hk
        rcases List.mem_append.1 hk with hk | hk
        · exact h q hq k hk
        · exact ho k hk
      · exact h q hq k hk
    · exact h q hq k hk
  · rcases List.mem_append.1 hp with hp | hp
    · exact h p hp k hk
    · rw [List.mem_singleton] at hp; subst hp; exact ho k hk

theorem refs_registered {κ : Type} [DecidableEq κ] (P : κ → Prop) (rs : List (Reg κ)) (h : ∀ r ∈ rs, ∀ o ∈ Reg.objs r, ∀ k ∈ o.refs, P k) :
    ∀ p ∈ registered rs, ∀ k ∈ p.refs, P k := by
  have hf : ∀ (os objects : List (Obj κ)), (∀ p ∈ objects, ∀ k ∈ p.refs, P k) → (∀ o ∈ os, ∀ k ∈ o.refs, P k) → ∀ p ∈ os.foldl add objects, ∀ k ∈ p.refs, P k := by
    intro os
    induction os with
    | nil => intro objects h1 _; exact h1
    | cons o os ih =>
      intro objects h1 h2
      rw [List.foldl_cons]
      exact ih _ (refs_add_sub P objects o h1 (h2 o (by simp))) fun o' h' => h2 o' (by simp [h'])
  unfold registered
  suffices gen : ∀ (rs : List (Reg κ)) (objects : List (Obj κ)), (∀ p ∈ objects, ∀ k ∈ p.refs, P k) → (∀ r ∈ rs, ∀ o ∈ Reg.objs r, ∀ k ∈ o.refs, P k) →
      ∀ p ∈ rs.foldl register objects, ∀ k ∈ p.refs, P k from gen rs [] (by simp) h
  intro rs
  induction rs with
  | nil => intro objects h1 _; exact h1
  | cons r rs ih =>
    intro objects h1 h2
    rw [List.foldl_cons]
    refine ih _ ?_ fun r' h' => h2 r' (by simp [h'])
    cases r with
    | add o => exact refs_add_sub P objects o h1 (h2 (.add o) (by simp) o (by simp [Reg.objs]))
    | page os =>
      refine hf _ objects h1 ?_
      exact hf os [] (by simp) fun o h' => h2 (.page os) (by simp) o h'

/-- **C152.** The file is written if and only if every page has a size of paper or something drawn on it. -/
theorem pdf_written (zlib : Option ℤ → List Char → List Char) (o : Options) (head info : List Char) (ps : List (Page σ)) (hc : Closed ps) :
    (pdf zlib o head info ps).isSome ↔ ∀ p ∈ ps, p.paper ≠ none ∨ p.bbox ≠ none := by
  have hm : (ps.all fun p => (mediabox p).isSome) = true ↔ ∀ p ∈ ps, p.paper ≠ none ∨ p.bbox ≠ none := by
    rw [List.all_eq_true]
    refine forall₂_congr fun p _ => ?_
    unfold mediabox
    cases p.paper <;> cases p.bbox <;> simp
  unfold pdf
  rw [← hm]
  by_cases h : (ps.all fun p => (mediabox p).isSome) = true
  · rw [if_pos h]
    refine ⟨fun _ => h, fun _ => ?_⟩
    have hkeys : ∀ r ∈ regs zlib o info ps, ∀ x ∈ Reg.objs r, x.key ∈ (registered (regs zlib o info ps)).map Obj.key := by
      intro r hr x hx
      rw [(registered_spec _).2]
      refine ⟨r, hr, ?_⟩
      cases r with
      | add y => simp only [Reg.objs, List.mem_singleton] at hx; subst hx; simp [Reg.keys]
      | page os => exact List.mem_map.2 ⟨x, hx, rfl⟩
    have kpages : Key.pages ∈ (registered (regs zlib o info ps)).map Obj.key :=
      hkeys (.add (pagesObj ps.length)) (by unfold regs; simp) (pagesObj ps.length) (by simp [Reg.objs])
    have kcat : Key.catalog ∈ (registered (regs zlib o info ps)).map Obj.key :=
      hkeys (.add (catalogObj o (has .form ps))) (by unfold regs; simp) (catalogObj o (has .form ps)) (by simp [Reg.objs])
    have kinfo : Key.info ∈ (registered (regs zlib o info ps)).map Obj.key :=
      hkeys (.add (infoObj info)) (by unfold regs; simp) (infoObj info) (by simp [Reg.objs])
    have kpage : ∀ (i : ℕ) p, ps[i]? = some p → Key.page i ∈ (registered (regs zlib o info ps)).map Obj.key := fun i p hi =>
      hkeys _ (mem_regs_page zlib o info ps i p hi) (pageObj o (has .annots ps) i p) (by simp [Reg.objs])
    have kcont : ∀ (i : ℕ) p, ps[i]? = some p → Key.content i ∈ (registered (regs zlib o info ps)).map Obj.key := fun i p hi =>
      hkeys _ (mem_regs_page zlib o info ps i p hi) (contentObj zlib o i p.content) (by simp [Reg.objs])
    have kos : ∀ q ∈ ps, ∀ x ∈ q.os, x.key ∈ (registered (regs zlib o info ps)).map Obj.key := by
      intro q hq x hx
      obtain ⟨i, hi⟩ := List.mem_iff_getElem?.1 hq
      exact hkeys _ (mem_regs_page zlib o info ps i q hi) x (by simp [Reg.objs, hx])
    have khas : ∀ k : Key σ, has k ps = true → k ∈ (registered (regs zlib o info ps)).map Obj.key := by
      intro k hk
      unfold has at hk
      obtain ⟨q, hq, hx⟩ := List.any_eq_true.1 hk
      obtain ⟨x, hx, he⟩ := List.any_eq_true.1 hx
      have := kos q hq x hx
      rw [of_decide_eq_true he] at this
      exact this
    refine write_total _ head Key.catalog Key.info ?_ kcat kinfo
    refine refs_registered _ _ ?_
    intro r hr x hx k hk
    rcases regs_cases zlib o info ps r hr x hx with ⟨i, p, hp, rfl | hm | rfl⟩ | rfl | rfl | rfl
    · simp only [pageObj, List.mem_append, List.mem_cons, List.not_mem_nil, or_false] at hk
      rcases hk with ((rfl | hk) | rfl) | hk
      · exact kpages
      · split at hk
        · rename_i ha
          rw [List.mem_singleton] at hk; subst hk; exact khas _ ha
        · simp at hk
      · exact kcont i p hp
      · obtain ⟨⟨t, d⟩, hr, hk⟩ := List.mem_flatMap.1 hk
        obtain ⟨⟨nm, k'⟩, hd, rfl⟩ := List.mem_map.1 hk
        obtain ⟨c, hcm, _, _, hck⟩ := lastCall_mem p.calls t nm k' ((mem_resourceList p.calls t nm k').1 ((mem_flat _ _ _ _).2 ⟨d, hr, hd⟩))
        obtain ⟨q, hq, y, hy, hyk⟩ := (hc p (List.mem_of_getElem? hp)).1 c hcm
        simp only
        rw [← hck, ← hyk]
        exact kos q hq y hy
    · rcases (hc p (List.mem_of_getElem? hp)).2 x hm k hk with ⟨j, q, hj, rfl⟩ | ⟨q, hq, y, hy, rfl⟩
      · exact kpage j q hj
      · exact kos q hq y hy
    · exact absurd (show k ∈ [] from hk) List.not_mem_nil
    · replace hk : k ∈ (List.range ps.length).map Key.page := hk
      simp only [List.mem_map, List.mem_range] at hk
      obtain ⟨j, hj, rfl⟩ := hk
      exact kpage j ps[j] (List.getElem?_eq_getElem hj)
    · replace hk : k ∈ Key.pages :: (if has .form ps then [Key.form] else []) := hk
      rw [List.mem_cons] at hk
      rcases hk with rfl | hk
      · exact kpages
      · split at hk
        · rename_i ha
          rw [List.mem_singleton] at hk; subst hk; exact khas _ ha
        · simp at hk
    · exact absurd (show k ∈ [] from hk) List.not_mem_nil
  · rw [if_neg h]
    simp [h]

/-- **C152, violation.** A document with an empty page of no given size (`canvas.writePDFfile` of an empty canvas) cannot be written. -/
theorem empty_page_fails (zlib : Option ℤ → List Char → List Char) (o : Options) (head info : List Char) (ps : List (Page σ)) (p : Page σ) (hp : p ∈ ps)
    (h1 : p.paper = none) (h2 : p.bbox = none) : pdf zlib o head info ps = none := by
  unfold pdf
  rw [if_neg]
  intro h
  have := List.all_eq_true.1 h p hp
  rw [mediabox, h1, h2] at this
  simp at this

/-- **C152, violation.** The level of compression asked for has no effect. -/
theorem compresslevel_ignored (zlib : Option ℤ → List Char → List Char) (o : Options) (l : ℤ) (head info : List Char) (ps : List (Page σ)) :
    pdf zlib { o with compresslevel := l } head info ps = pdf zlib o head info ps := rfl

/-! ## An example: two pages, the second with a font -/

/-- The pages. -/
def exPages : List (Page ℕ) :=
  [⟨[], [], "0 0 m 1 1 l S\n".toList, some "0 0 1 1".toList, none, true⟩,
   ⟨[⟨.other 7, [], fun _ => "<<\n>>\n".toList, false⟩], [⟨"Font".toList, "F7".toList, .other 7, some "Text".toList⟩], "BT /F7 10 Tf (x) Tj ET\n".toList, none,
    some ("595".toList, "842".toList), false⟩]

theorem exPages_ok : Ok exPages ∧ Closed exPages := by
  refine ⟨⟨?_, ?_, ?_, ?_⟩, ?_⟩
  all_goals
    intro p hp
    simp only [exPages, List.mem_cons, List.not_mem_nil, or_false] at hp
    rcases hp with rfl | rfl
  · simp
  · intro o ho; simp at ho; subst ho; trivial
  · intro b hb; simp only [Option.some.injEq] at hb; subst hb; show '\n' ∉ _; decide
  · intro b hb; simp at hb
  · intro w h hh; simp at hh
  · intro w h hh; simp only [Option.some.injEq, Prod.mk.injEq] at hh; obtain ⟨rfl, rfl⟩ := hh; exact ⟨by show '\n' ∉ _; decide, by show '\n' ∉ _; decide⟩
  · simp
  · intro c hc
    simp only [List.mem_cons, List.not_mem_nil, or_false] at hc
    subst hc
    refine ⟨⟨by decide, by decide⟩, ⟨by decide, by decide⟩, fun s hs => ?_⟩
    simp only [Option.some.injEq] at hs
    subst hs
    show '\n' ∉ _
    decide
  · simp
  · simp [exPages]

example : (pdf (fun _ c => c) ⟨false, true, false, 6⟩ "%PDF-1.4\n".toList "<<\n>>\n".toList exPages).isSome = true :=
  (pdf_written _ _ _ _ _ exPages_ok.2).2 (by intro p hp; simp only [exPages, List.mem_cons, List.not_mem_nil, or_false] at hp; rcases hp with rfl | rfl <;> simp)

example : ((pdf (fun _ c => c) ⟨false, true, false, 6⟩ "%PDF-1.4\n".toList "<<\n>>\n".toList exPages).bind readKids) = some [1, 3] ∧
    ((pdf (fun _ c => c) ⟨false, true, false, 6⟩ "%PDF-1.4\n".toList "<<\n>>\n".toList exPages).bind fun f => readResources f 3) = some [("Font".toList, "F7".toList, 4)] ∧
    ((pdf (fun _ c => c) ⟨false, true, false, 6⟩ "%PDF-1.4\n".toList "<<\n>>\n".toList exPages).bind fun f => readStream f 5) = some "BT /F7 10 Tf (x) Tj ET\n".toList := by
  decide +kernel

end PyX.Pdf.File
