import Verif.Pdf.FileRead
import Mathlib.Data.List.Perm.Basic

/-!
# C152: a reader of the PDF file finds exactly the pages of the document
-/

set_option linter.unusedSectionVars false
set_option linter.unusedSimpArgs false

namespace PyX.Pdf.File
open PyX.Texter (str str_digits str_ne toInt_str AllDigits takeWhile_digits)
open PyX.Tick (toInt isDigit)
open PyX.Pdf

variable {σ : Type} [DecidableEq σ]

/-! ## What is assumed about pages -/

/-- The objects registered by pages are not those of the page tree. -/
def Foreign : Key σ → Prop
  | .annots | .form | .other _ => True
  | _ => False

/-- A text without line end. -/
def Plain (s : List Char) : Prop := '\n' ∉ s

/-- A name. -/
def Name (s : List Char) : Prop := '\n' ∉ s ∧ ' ' ∉ s

/-- The pages register other objects, and there are no line ends in numbers and names. -/
structure Ok (ps : List (Page σ)) : Prop where
  foreign : ∀ p ∈ ps, ∀ o ∈ p.os, Foreign o.key
  bbox : ∀ p ∈ ps, ∀ b, p.bbox = some b → Plain b
  paper : ∀ p ∈ ps, ∀ w h, p.paper = some (w, h) → Plain w ∧ Plain h
  calls : ∀ p ∈ ps, ∀ c ∈ p.calls, Name c.type ∧ Name c.name ∧ ∀ s, c.procset = some s → Plain s

/-- The object last given a name. -/
def lastCall (calls : List (Call σ)) (t n : List Char) : Option (Key σ) := (calls.reverse.find? fun c => decide (c.type = t ∧ c.name = n)).map Call.key

/-! ## Resources -/

/-- Type, name and object. -/
def flat {κ : Type} (r : List (List Char × List (List Char × κ))) : List (List Char × List Char × κ) := r.flatMap fun e => e.2.map fun x => (e.1, x.1, x.2)

theorem mem_flat {κ : Type} (r : List (List Char × List (List Char × κ))) (t n : List Char) (k : κ) : (t, n, k) ∈ flat r ↔ ∃ d, (t, d) ∈ r ∧ (n, k) ∈ d := by
  unfold flat
  rw [List.mem_flatMap]
  constructor
  · rintro ⟨⟨t', d⟩, h1, h2⟩
    obtain ⟨⟨n', k'⟩, h3, h4⟩ := List.mem_map.1 h2
    cases h4
    exact ⟨d, h1, h3⟩
  · rintro ⟨d, h1, h2⟩
    exact ⟨(t, d), h1, List.mem_map.2 ⟨(n, k), h2, rfl⟩⟩

theorem mem_put {κ : Type} (d : List (List Char × κ)) (n n' : List Char) (k k' : κ) :
    (n', k') ∈ put d n k ↔ (n' = n ∧ k' = k) ∨ (n' ≠ n ∧ (n', k') ∈ d) := by
  unfold put
  by_cases h : d.any (fun e => decide (e.1 = n)) = true
  · rw [if_pos h]
    obtain ⟨e, he, hen⟩ := List.any_eq_true.1 h
    have hen : e.1 = n := by simpa using hen
    constructor
    · intro hm
      obtain ⟨x, hx, hxe⟩ := List.mem_map.1 hm
      by_cases hn : x.1 = n
      · rw [if_pos hn] at hxe; cases hxe; exact .inl ⟨rfl, rfl⟩
      · rw [if_neg hn] at hxe; subst hxe; exact .inr ⟨hn, hx⟩
    · rintro (⟨rfl, rfl⟩ | ⟨hn, hx⟩)
      · exact List.mem_map.2 ⟨e, he, by rw [if_pos hen]⟩
      · exact List.mem_map.2 ⟨_, hx, by rw [if_neg hn]⟩
  · rw [if_neg h]
    have hno : ∀ x ∈ d, x.1 ≠ n := by
      intro x hx hn
      exact h (List.any_eq_true.2 ⟨x, hx, by simpa using hn⟩)
    constructor
    · intro hm
      rcases List.mem_append.1 hm with hm | hm
      · exact .inr ⟨hno _ hm, hm⟩
      · rw [List.mem_singleton] at hm; cases hm; exact .inl ⟨rfl, rfl⟩
    · rintro (⟨rfl, rfl⟩ | ⟨_, hx⟩)
      · exact List.mem_append_right _ (List.mem_singleton.2 rfl)
      · exact List.mem_append_left _ hx

theorem mem_addresource {κ : Type} (r : List (List Char × List (List Char × κ))) (t n : List Char) (k : κ) (t' n' : List Char) (k' : κ) :
    (t', n', k') ∈ flat (addresource r t n k) ↔ ((t' = t ∧ n' = n) ∧ k' = k) ∨ (¬ (t' = t ∧ n' = n) ∧ (t', n', k') ∈ flat r) := by
  rw [mem_flat, mem_flat]
  unfold addresource
  by_cases h : r.any (fun e => decide (e.1 = t)) = true
  · rw [if_pos h]
    obtain ⟨e, he, het⟩ := List.any_eq_true.1 h
    have het : e.1 = t := by simpa using het
    constructor
    · rintro ⟨d, hd, hm⟩
      obtain ⟨x, hx, hxe⟩ := List.mem_map.1 hd
      by_cases hn : x.1 = t
      · rw [if_pos hn] at hxe
        cases hxe
        rcases (mem_put x.2 n n' k k').1 hm with ⟨rfl, rfl⟩ | ⟨h1, h2⟩
        · exact .inl ⟨⟨rfl, rfl⟩, rfl⟩
        · exact .inr ⟨fun hh => h1 hh.2, x.2, by rw [← hn]; exact hx, h2⟩
      · rw [if_neg hn] at hxe
        subst hxe
        exact .inr ⟨fun hh => hn hh.1, d, hx, hm⟩
    · rintro (⟨⟨rfl, rfl⟩, rfl⟩ | ⟨hn, d, hd, hm⟩)
      · exact ⟨put e.2 n' k', List.mem_map.2 ⟨e, he, by rw [if_pos het]⟩, (mem_put _ _ _ _ _).2 (.inl ⟨rfl, rfl⟩)⟩
      · by_cases ht : t' = t
        · subst ht
          refine ⟨put d n k, List.mem_map.2 ⟨(t', d), hd, by simp⟩, (mem_put _ _ _ _ _).2 (.inr ⟨fun e => hn ⟨rfl, e⟩, hm⟩)⟩
        · exact ⟨d, List.mem_map.2 ⟨(t', d), hd, by rw [if_neg ht]⟩, hm⟩
  · rw [if_neg h]
    have hno : ∀ x ∈ r, x.1 ≠ t := by
      intro x hx hn
      exact h (List.any_eq_true.2 ⟨x, hx, by simpa using hn⟩)
    constructor
    · rintro ⟨d, hd, hm⟩
      rcases List.mem_append.1 hd with hd | hd
      · exact .inr ⟨fun hh => hno _ hd hh.1, d, hd, hm⟩
      · rw [List.mem_singleton] at hd; cases hd
        rw [List.mem_singleton] at hm; cases hm
        exact .inl ⟨⟨rfl, rfl⟩, rfl⟩
    · rintro (⟨⟨rfl, rfl⟩, rfl⟩ | ⟨_, d, hd, hm⟩)
      · exact ⟨[(n', k')], List.mem_append_right _ (List.mem_singleton.2 rfl), List.mem_singleton.2 rfl⟩
      · exact ⟨d, List.mem_append_left _ hd, hm⟩

theorem mem_resources (calls : List (Call σ)) (t n : List Char) (k : Key σ) : (t, n, k) ∈ flat (resources calls) ↔ lastCall calls t n = some k := by
  unfold resources lastCall
  induction calls using List.reverseRecOn with
  | nil => simp [flat]
  | append_singleton cs c ih =>
    rw [List.foldl_append, List.foldl_cons, List.foldl_nil, mem_addresource, ih, List.reverse_append, List.reverse_singleton, List.singleton_append, List.find?_cons]
    by_cases h : c.type = t ∧ c.name = n
    · rw [decide_eq_true h]
      simp only [Option.map_some, Option.some.injEq]
      obtain ⟨rfl, rfl⟩ := h
      constructor
      · rintro (⟨_, rfl⟩ | ⟨h, _⟩)
        · rfl
        · exact absurd ⟨rfl, rfl⟩ h
      · intro h; exact .inl ⟨⟨rfl, rfl⟩, h.symm⟩
    · rw [decide_eq_false h]
      simp only
      constructor
      · rintro (⟨⟨h1, h2⟩, _⟩ | ⟨_, h⟩)
        · exact absurd ⟨h1.symm, h2.symm⟩ h
        · exact h
      · intro hh
        exact .inr ⟨fun e => h ⟨e.1.symm, e.2.symm⟩, hh⟩

theorem mem_resourceList (calls : List (Call σ)) (t n : List Char) (k : Key σ) : (t, n, k) ∈ flat (resourceList calls) ↔ lastCall calls t n = some k := by
  rw [← mem_resources, mem_flat, mem_flat]
  unfold resourceList sorted
  constructor
  · rintro ⟨d, hd, hm⟩
    obtain ⟨x, hx, hxe⟩ := List.mem_map.1 hd
    cases hxe
    exact ⟨x.2, (List.mem_insertionSort _).1 hx, (List.mem_insertionSort _).1 hm⟩
  · rintro ⟨d, hd, hm⟩
    exact ⟨_, List.mem_map.2 ⟨(t, d), (List.mem_insertionSort _).2 hd, rfl⟩, (List.mem_insertionSort _).2 hm⟩

theorem lastCall_mem (calls : List (Call σ)) (t n : List Char) (k : Key σ) (h : lastCall calls t n = some k) : ∃ c ∈ calls, c.type = t ∧ c.name = n ∧ c.key = k := by
  unfold lastCall at h
  rw [Option.map_eq_some_iff] at h
  obtain ⟨c, h1, h2⟩ := h
  have := List.find?_some h1
  simp only [decide_eq_true_eq] at this
  exact ⟨c, List.mem_reverse.1 (List.mem_of_find?_eq_some h1), this.1, this.2, h2⟩

/-- The entries which the reader gets. -/
def entriesOf : List (List Char × List (List Char)) → List ℕ → List (List Char × List Char × ℕ)
  | [], _ => []
  | (t, names) :: r, nos => List.zipWith (fun n no => (t, n, no)) names (nos.take names.length) ++ entriesOf r (nos.drop names.length)

theorem readRes_names (t : List Char) (names : List (List Char)) (nos : List ℕ) (rest : List (List Char)) (hn : ∀ n ∈ names, Name n) :
    readRes (some t) (List.zipWith (fun n no => "/".toList ++ n ++ " ".toList ++ str no ++ " 0 R".toList) names nos ++ ">>".toList :: rest) =
      List.zipWith (fun n no => (t, n, no)) names nos ++ readRes none rest := by
  induction names generalizing nos with
  | nil => simp [readRes]
  | cons n names ih =>
    cases nos with
    | nil => simp [readRes]
    | cons no nos =>
      rw [List.zipWith_cons_cons, List.cons_append, readRes, if_neg (by simp), ih nos fun n' h' => hn n' (by simp [h']), List.zipWith_cons_cons, List.cons_append]
      have hsp : ' ' ∉ n := (hn n (by simp)).2
      have e1 : ("/".toList ++ n ++ " ".toList ++ str no ++ " 0 R".toList).drop 1 = n ++ ' ' :: (str no ++ " 0 R".toList) := by simp
      have e2 : (n ++ ' ' :: (str no ++ " 0 R".toList)).takeWhile (fun c => decide (c ≠ ' ')) = n := by
        rw [List.takeWhile_append_of_pos]
        · simp
        · intro c hc
          simp only [ne_eq, decide_not, Bool.not_eq_true', decide_eq_false_iff_not]
          exact fun e => hsp (e ▸ hc)
      have e3 : (("/".toList ++ n ++ " ".toList ++ str no ++ " 0 R".toList).dropWhile fun c => decide (c ≠ ' ')).drop 1 = str no ++ " 0 R".toList := by
        have : "/".toList ++ n ++ " ".toList ++ str no ++ " 0 R".toList = ("/".toList ++ n) ++ ' ' :: (str no ++ " 0 R".toList) := by simp
        rw [this, List.dropWhile_append_of_pos]
        · simp
        · intro c hc
          simp only [ne_eq, decide_not, Bool.not_eq_true', decide_eq_false_iff_not]
          rintro rfl
          rcases List.mem_append.1 hc with hc | hc
          · revert hc; decide
          · exact hsp hc
      rw [e1, e2, e3, number_str _ _ (by intro c hc; simp at hc; subst hc; decide)]

theorem readRes_groups (gs : List (List Char × List (List Char))) (nos : List ℕ) (rest : List (List Char)) (hn : ∀ g ∈ gs, Name g.1 ∧ ∀ n ∈ g.2, Name n) :
    readRes none (groupsLines gs nos ++ ">>".toList :: rest) = entriesOf gs nos := by
  induction gs generalizing nos with
  | nil => simp [groupsLines, readRes, entriesOf]
  | cons g gs ih =>
    obtain ⟨t, names⟩ := g
    rw [groupsLines, entriesOf, groupLines]
    have e : ["/".toList ++ t ++ " <<".toList] ++ List.zipWith (fun n no => "/".toList ++ n ++ " ".toList ++ str no ++ " 0 R".toList) names (nos.take names.length) ++
        [">>".toList] ++ groupsLines gs (nos.drop names.length) ++ ">>".toList :: rest =
      ("/".toList ++ t ++ " <<".toList) :: (List.zipWith (fun n no => "/".toList ++ n ++ " ".toList ++ str no ++ " 0 R".toList) names (nos.take names.length) ++
        ">>".toList :: (groupsLines gs (nos.drop names.length) ++ ">>".toList :: rest)) := by simp
    rw [e, readRes, if_neg (by simp)]
    have hs : " <<".toList.isSuffixOf ("/".toList ++ t ++ " <<".toList) = true := by
      rw [List.isSuffixOf_iff_suffix]; exact List.suffix_append _ _
    rw [if_pos hs]
    have ht : (("/".toList ++ t ++ " <<".toList).drop 1).take (("/".toList ++ t ++ " <<".toList).length - 4) = t := by
      have h1 : ("/".toList ++ t ++ " <<".toList).drop 1 = t ++ " <<".toList := by simp
      have h2 : ("/".toList ++ t ++ " <<".toList).length - 4 = t.length := by simp
      rw [h1, h2, List.take_left]
    rw [ht, readRes_names t names _ _ (hn (t, names) (by simp)).2, ih _ fun g hg => hn g (by simp [hg])]

theorem forall2_split {α β : Type} (R : α → β → Prop) (a b : List α) (l : List β) (h : List.Forall₂ R (a ++ b) l) :
    ∃ l1 l2, List.Forall₂ R a l1 ∧ List.Forall₂ R b l2 ∧ l = l1 ++ l2 := by
  induction a generalizing l with
  | nil => exact ⟨[], l, .nil, h, rfl⟩
  | cons x a ih =>
    rw [List.cons_append] at h
    cases h with
    | cons h1 h2 =>
      obtain ⟨l1, l2, g1, g2, rfl⟩ := ih _ h2
      exact ⟨_ :: l1, l2, .cons h1 g1, g2, rfl⟩

theorem entriesOf_spec {κ : Type} (r : List (List Char × List (List Char × κ))) (f : κ → Option ℕ) (nos : List ℕ)
    (h : List.Forall₂ (fun k no => f k = some no) (r.flatMap fun e => e.2.map Prod.snd) nos) (t n : List Char) (no : ℕ) :
    (t, n, no) ∈ entriesOf (r.map fun e => (e.1, e.2.map Prod.fst)) nos ↔ ∃ k, (t, n, k) ∈ flat r ∧ f k = some no := by
  induction r generalizing nos with
  | nil => simp [entriesOf, flat]
  | cons e r ih =>
    obtain ⟨t', d⟩ := e
    rw [List.flatMap_cons] at h
    rw [List.map_cons, entriesOf, List.length_map, List.mem_append]
    obtain ⟨n1, n2, h1, h2, rfl⟩ : ∃ n1 n2, List.Forall₂ (fun k no => f k = some no) (d.map Prod.snd) n1 ∧
        List.Forall₂ (fun k no => f k = some no) (r.flatMap fun e => e.2.map Prod.snd) n2 ∧ nos = n1 ++ n2 := by
      exact forall2_split _ _ _ _ h
    have hl : n1.length = d.length := by rw [← h1.length_eq, List.length_map]
    rw [List.take_left' hl, List.drop_left' hl, ih n2 h2]
    have hz : (t, n, no) ∈ List.zipWith (fun n no => (t', n, no)) (d.map Prod.fst) n1 ↔ t = t' ∧ ∃ k, (n, k) ∈ d ∧ f k = some no := by
      clear h h2 ih
      induction d generalizing n1 with
      | nil => simp
      | cons x d ih =>
        cases n1 with
        | nil => simp at hl
        | cons m n1 =>
          rw [List.map_cons] at h1
          cases h1 with
          | cons hm hr =>
            have := ih n1 hr (by simpa using hl)
            rw [List.map_cons, List.zipWith_cons_cons, List.mem_cons, this]
            constructor
            · rintro (he | ⟨rfl, k, h1, h2⟩)
              · cases he; exact ⟨rfl, x.2, by simp, hm⟩
              · exact ⟨rfl, k, by simp [h1], h2⟩
            · rintro ⟨rfl, k, h1, h2⟩
              rcases List.mem_cons.1 h1 with rfl | h1
              · simp only at hm; rw [hm] at h2; cases h2; exact .inl rfl
              · exact .inr ⟨rfl, k, h1, h2⟩
    rw [hz]
    constructor
    · rintro (⟨rfl, k, h1, h2⟩ | ⟨k, h1, h2⟩)
      · exact ⟨k, (mem_flat _ _ _ _).2 ⟨d, by simp, h1⟩, h2⟩
      · obtain ⟨d', h3, h4⟩ := (mem_flat _ _ _ _).1 h1
        exact ⟨k, (mem_flat _ _ _ _).2 ⟨d', by simp [h3], h4⟩, h2⟩
    · rintro ⟨k, h1, h2⟩
      obtain ⟨d', h3, h4⟩ := (mem_flat _ _ _ _).1 h1
      rcases List.mem_cons.1 h3 with h3 | h3
      · cases h3; exact .inl ⟨rfl, k, h4, h2⟩
      · exact .inr ⟨k, (mem_flat _ _ _ _).2 ⟨d', h3, h4⟩, h2⟩

theorem mapM_forall {α β : Type} (f : α → Option β) (l : List α) (ns : List β) (h : l.mapM f = some ns) : List.Forall₂ (fun a n => f a = some n) l ns := by
  induction l generalizing ns with
  | nil => simp at h; subst h; exact .nil
  | cons a l ih =>
    rw [List.mapM_cons] at h
    cases ha : f a with
    | none => rw [ha] at h; cases h
    | some n =>
      cases hm : l.mapM f with
      | none => rw [ha, hm] at h; cases h
      | some ns' =>
        rw [ha, hm] at h
        simp only [Option.bind_eq_bind, Option.bind_some, Option.pure_def, Option.some.injEq] at h
        subst h
        exact .cons ha (ih ns' hm)

/-! ## The objects of the page tree in the registry -/

theorem pageObj_key (o : Options) (a : Bool) (i : ℕ) (p : Page σ) : (pageObj o a i p).key = .page i := rfl
theorem contentObj_key (zlib : Option ℤ → List Char → List Char) (o : Options) (i : ℕ) (c : List Char) : (contentObj zlib o i c : Obj (Key σ)).key = .content i := rfl
theorem pagesObj_key (n : ℕ) : (pagesObj n : Obj (Key σ)).key = .pages := rfl
theorem catalogObj_key (o : Options) (f : Bool) : (catalogObj o f : Obj (Key σ)).key = .catalog := rfl
theorem infoObj_key (i : List Char) : (infoObj i : Obj (Key σ)).key = .info := rfl

theorem regs_cases (zlib : Option ℤ → List Char → List Char) (o : Options) (info : List Char) (ps : List (Page σ)) (r : Reg (Key σ)) (hr : r ∈ regs zlib o info ps)
    (x : Obj (Key σ)) (hx : x ∈ Reg.objs r) :
    (∃ i p, ps[i]? = some p ∧ (x = pageObj o (has .annots ps) i p ∨ x ∈ p.os ∨ x = contentObj zlib o i p.content)) ∨
    x = pagesObj ps.length ∨ x = catalogObj o (has .form ps) ∨ x = infoObj info := by
  unfold regs at hr
  rcases List.mem_append.1 hr with hr | hr
  · left
    obtain ⟨⟨p, i⟩, h1, h2⟩ := List.mem_flatMap.1 hr
    have hi : ps[i]? = some p := by
      have := List.mem_zipIdx_iff_getElem?.1 h1
      simpa using this
    refine ⟨i, p, hi, ?_⟩
    simp only [pageRegs, List.mem_cons, List.not_mem_nil, or_false] at h2
    rcases h2 with rfl | rfl
    · simp only [Reg.objs, List.cons_append, List.mem_cons, List.mem_append, List.not_mem_nil, or_false] at hx
      exact hx
    · simp only [Reg.objs, List.mem_cons, List.not_mem_nil, or_false] at hx
      exact .inl hx
  · right
    simp only [List.mem_cons, List.not_mem_nil, or_false] at hr
    rcases hr with rfl | rfl | rfl <;> simp only [Reg.objs, List.mem_cons, List.not_mem_nil, or_false] at hx
    · exact .inl hx
    · exact .inr (.inl hx)
    · exact .inr (.inr hx)

theorem mem_regs_page (zlib : Option ℤ → List Char → List Char) (o : Options) (info : List Char) (ps : List (Page σ)) (i : ℕ) (p : Page σ) (h : ps[i]? = some p) :
    Reg.page (pageObj o (has .annots ps) i p :: p.os ++ [contentObj zlib o i p.content]) ∈ regs zlib o info ps := by
  unfold regs
  apply List.mem_append_left
  refine List.mem_flatMap.2 ⟨(p, i), List.mem_zipIdx_iff_getElem?.2 (by simpa using h), ?_⟩
  simp [pageRegs]

section
variable (zlib : Option ℤ → List Char → List Char) (o : Options) (info : List Char) (ps : List (Page σ)) (hok : Ok ps)
include hok

theorem only_page (i : ℕ) (p : Page σ) (h : ps[i]? = some p) : ∀ x ∈ registered (regs zlib o info ps), x.key = .page i → x = pageObj o (has .annots ps) i p := by
  refine registered_only _ (pageObj o (has .annots ps) i p) rfl ?_
  intro r hr x hx hk
  rcases regs_cases zlib o info ps r hr x hx with ⟨j, q, hq, rfl | hm | rfl⟩ | rfl | rfl | rfl
  · simp only [pageObj_key, contentObj_key, pagesObj_key, catalogObj_key, infoObj_key] at hk; cases hk
    rw [h] at hq; cases hq; rfl
  · have := hok.foreign q (List.mem_of_getElem? hq) x hm
    rw [hk] at this; exact this.elim
  · simp only [pageObj_key, contentObj_key, pagesObj_key, catalogObj_key, infoObj_key] at hk; cases hk
  · simp only [pageObj_key, contentObj_key, pagesObj_key, catalogObj_key, infoObj_key] at hk; cases hk
  · simp only [pageObj_key, contentObj_key, pagesObj_key, catalogObj_key, infoObj_key] at hk; cases hk
  · simp only [pageObj_key, contentObj_key, pagesObj_key, catalogObj_key, infoObj_key] at hk; cases hk

theorem only_content (i : ℕ) (p : Page σ) (h : ps[i]? = some p) : ∀ x ∈ registered (regs zlib o info ps), x.key = .content i → x = contentObj zlib o i p.content := by
  refine registered_only _ (contentObj zlib o i p.content) rfl ?_
  intro r hr x hx hk
  rcases regs_cases zlib o info ps r hr x hx with ⟨j, q, hq, rfl | hm | rfl⟩ | rfl | rfl | rfl
  · simp only [pageObj_key, contentObj_key, pagesObj_key, catalogObj_key, infoObj_key] at hk; cases hk
  · have := hok.foreign q (List.mem_of_getElem? hq) x hm
    rw [hk] at this; exact this.elim
  · simp only [pageObj_key, contentObj_key, pagesObj_key, catalogObj_key, infoObj_key] at hk; cases hk
    rw [h] at hq; cases hq; rfl
  · simp only [pageObj_key, contentObj_key, pagesObj_key, catalogObj_key, infoObj_key] at hk; cases hk
  · simp only [pageObj_key, contentObj_key, pagesObj_key, catalogObj_key, infoObj_key] at hk; cases hk
  · simp only [pageObj_key, contentObj_key, pagesObj_key, catalogObj_key, infoObj_key] at hk; cases hk

theorem only_pages : ∀ x ∈ registered (regs zlib o info ps), x.key = .pages → x = pagesObj ps.length := by
  refine registered_only _ (pagesObj ps.length) rfl ?_
  intro r hr x hx hk
  rcases regs_cases zlib o info ps r hr x hx with ⟨j, q, hq, rfl | hm | rfl⟩ | rfl | rfl | rfl
  · simp only [pageObj_key, contentObj_key, pagesObj_key, catalogObj_key, infoObj_key] at hk; cases hk
  · have := hok.foreign q (List.mem_of_getElem? hq) x hm
    rw [hk] at this; exact this.elim
  · simp only [pageObj_key, contentObj_key, pagesObj_key, catalogObj_key, infoObj_key] at hk; cases hk
  · rfl
  · simp only [pageObj_key, contentObj_key, pagesObj_key, catalogObj_key, infoObj_key] at hk; cases hk
  · simp only [pageObj_key, contentObj_key, pagesObj_key, catalogObj_key, infoObj_key] at hk; cases hk

theorem only_catalog : ∀ x ∈ registered (regs zlib o info ps), x.key = .catalog → x = catalogObj o (has .form ps) := by
  refine registered_only _ (catalogObj o (has .form ps)) rfl ?_
  intro r hr x hx hk
  rcases regs_cases zlib o info ps r hr x hx with ⟨j, q, hq, rfl | hm | rfl⟩ | rfl | rfl | rfl
  · simp only [pageObj_key, contentObj_key, pagesObj_key, catalogObj_key, infoObj_key] at hk; cases hk
  · have := hok.foreign q (List.mem_of_getElem? hq) x hm
    rw [hk] at this; exact this.elim
  · simp only [pageObj_key, contentObj_key, pagesObj_key, catalogObj_key, infoObj_key] at hk; cases hk
  · simp only [pageObj_key, contentObj_key, pagesObj_key, catalogObj_key, infoObj_key] at hk; cases hk
  · rfl
  · simp only [pageObj_key, contentObj_key, pagesObj_key, catalogObj_key, infoObj_key] at hk; cases hk

end

end PyX.Pdf.File
