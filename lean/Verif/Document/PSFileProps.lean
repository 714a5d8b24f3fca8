import Verif.Document.PSFileRead
import Mathlib.Algebra.Order.Ring.Rat
import Mathlib.Data.Rat.Floor

/-!
# C149: PostScript files have the structure their comments announce

The files are read by the reader of `PSFileRead.lean`; bounding boxes also by `epsfile` (`Verif/Eps`).
-/

set_option linter.unusedSectionVars false

namespace PyX.PSFile

open Eps (linesOf)

/-! ## Texts as lines -/

/-- The text consists of the lines. -/
structure U (s : Str) (ls : List Str) : Prop where
  ended : Ended s
  lines : linesOf s = ls

theorem U.append {s t : Str} {ls ms : List Str} (h : U s ls) (h' : U t ms) : U (s ++ t) (ls ++ ms) :=
  ⟨ended_append h.ended h'.ended, by rw [lines_append t h.ended, h.lines, h'.lines]⟩

theorem U.nil : U [] [] := ⟨Or.inl rfl, linesOf_nil⟩

theorem U.line {l : Str} (h : Clean l) : U (line l) [line l] := ⟨ended_line l, lines_line l h⟩

theorem U.self {s : Str} (h : Ended s) : U s (linesOf s) := ⟨h, rfl⟩

theorem clean_append {a b : Str} (ha : Clean a) (hb : Clean b) : Clean (a ++ b) := by
  intro c hc
  rcases List.mem_append.1 hc with h | h
  exacts [ha c h, hb c h]

theorem clean_of {s : Str} (h : s.all (fun c => c != '\n' && c != '\r') = true) : Clean s := by
  intro c hc
  have := List.all_eq_true.1 h c hc
  simpa using this

theorem clean_nat (n : ℕ) : Clean (nat n) := by
  intro c hc
  have h : c.isDigit = true := Nat.isDigit_of_mem_toDigits (by decide) (by decide) hc
  constructor <;> rintro rfl <;> exact absurd h (by decide)

theorem clean_int : ∀ z : ℤ, Clean (int z)
  | .ofNat n => clean_nat n
  | .negSucc n => by
    intro c hc
    rcases List.mem_cons.1 hc with rfl | hc
    · decide
    · exact clean_nat _ c hc

section Files

variable {K : Type} [Field K] [LinearOrder K] [IsStrictOrderedRing K] [FloorRing K] (g : K → Str)

theorem clean_box (k : String) (hk : Clean (lit k)) (q : Quad K) :
    Clean (lit k ++ int ⌊q.llx⌋ ++ lit " " ++ int ⌊q.lly⌋ ++ lit " " ++ int ⌈q.urx⌉ ++ lit " " ++ int ⌈q.ury⌉) := by
  have hs : Clean (lit " ") := clean_of (by decide)
  exact clean_append (clean_append (clean_append (clean_append (clean_append (clean_append (clean_append hk (clean_int _)) hs) (clean_int _)) hs)
    (clean_int _)) hs) (clean_int _)

theorem clean_hires (hg : ∀ x, Clean (g x)) (q : Quad K) :
    Clean (lit "%%HiResBoundingBox: " ++ g q.llx ++ lit " " ++ g q.lly ++ lit " " ++ g q.urx ++ lit " " ++ g q.ury) := by
  have hs : Clean (lit " ") := clean_of (by decide)
  exact clean_append (clean_append (clean_append (clean_append (clean_append (clean_append (clean_append (clean_of (by decide)) (hg _)) hs) (hg _)) hs)
    (hg _)) hs) (hg _)

/-! ## The header -/

/-- The texts of a document are within their lines. -/
structure Fine (version date : Str) (title : Option Str) (prolog : Str) (ps : List (Page K)) : Prop where
  version : Clean version
  date : Clean date
  title : ∀ t, title = some t → Clean t
  number : ∀ x, Clean (g x)
  names : ∀ p ∈ ps, ∀ n, p.name = some n → Clean n
  papers : ∀ p ∈ ps, ∀ f, p.paper = some f → Clean f.label
  prolog : Ended prolog ∧ Body false (linesOf prolog)
  contents : ∀ p ∈ ps, Ended p.content ∧ Body false (linesOf p.content)

/-- The two comments with a box. -/
def boxComments (b : BBox K) : List Str := (b.map fun q => [boxLine "%%BoundingBox: " q, hiresLine g q]).getD []

/-- Creator, title and date. -/
def infoComments (version date : Str) (title : Option Str) : List Str :=
  [line (lit "%%Creator: PyX " ++ version)] ++ (title.map fun t => line (lit "%%Title: " ++ t)).toList ++ [line (lit "%%CreationDate: " ++ date)]

/-- **C149.** The sizes of papers are written as the integral part of their sizes in points: A4 is 595 times 841 points. -/
theorem trunc_spec (x : K) : (0 ≤ x → ((trunc x : ℤ) : K) ≤ x ∧ x < trunc x + 1) ∧ (x < 0 → x ≤ trunc x ∧ (trunc x : K) < x + 1) := by
  unfold trunc
  constructor
  · intro h
    rw [if_pos h]
    exact ⟨Int.floor_le x, Int.lt_floor_add_one x⟩
  · intro h
    rw [if_neg (not_le.2 h)]
    exact ⟨Int.le_ceil x, Int.ceil_lt_add_one x⟩

example : trunc (59528 / 100 : ℚ) = 595 ∧ trunc (84189 / 100 : ℚ) = 841 := by decide +kernel

/-- Name and size of a paper format. -/
def paperText (f : Paper K) : Str := f.label ++ lit " " ++ int (trunc f.width) ++ lit " " ++ int (trunc f.height) ++ lit " 75 white ()"

/-- The comments with the paper formats: the first and the others. -/
def mediaComments : List (Paper K) → List Str
  | [] => []
  | f :: fs => line (lit "%%DocumentMedia: " ++ paperText f) :: fs.map fun f => line (lit "%%+ " ++ paperText f)

/-- The first lines of the file. -/
def psHeader (version date : Str) (title : Option Str) (writebbox : Bool) (ps : List (Page K)) : List Str :=
  [line (lit "%!PS-Adobe-3.0")] ++ (if writebbox then boxComments g (docBBox ps) else []) ++ infoComments version date title ++ mediaComments (papers ps) ++
    [line (lit "%%Pages: " ++ nat ps.length), line (lit "%%PageOrder: Ascend")]

theorem body_one {l : Str} (h : kind l = .plain) : Body false [l] := Body.plain false l [] (Or.inl h) (Body.nil _)

theorem kindLine (k t : Str) (h : (openKeys ++ closeKeys ++ [dataKey] ++ topKeys).all (clash · k) = true) : kind (line (k ++ t)) = .plain := by
  unfold line
  rw [List.append_assoc]
  exact kind_plain k _ h

theorem kindLine' (k : Str) (h : (openKeys ++ closeKeys ++ [dataKey] ++ topKeys).all (clash · k) = true) : kind (line k) = .plain := kind_plain k _ h

theorem kind_box (k : String) (h : (openKeys ++ closeKeys ++ [dataKey] ++ topKeys).all (clash · (lit k)) = true) (q : Quad K) :
    kind (boxLine k q) = .plain := by
  unfold boxLine
  have := kindLine (lit k) (int ⌊q.llx⌋ ++ lit " " ++ int ⌊q.lly⌋ ++ lit " " ++ int ⌈q.urx⌉ ++ lit " " ++ int ⌈q.ury⌉) h
  simpa using this

theorem kind_hires (q : Quad K) : kind (hiresLine g q) = .plain := by
  unfold hiresLine
  have := kindLine (lit "%%HiResBoundingBox: ") (g q.llx ++ lit " " ++ g q.lly ++ lit " " ++ g q.urx ++ lit " " ++ g q.ury) (by decide)
  simpa using this

theorem u_box (k : String) (hk : Clean (lit k)) (q : Quad K) : U (boxLine k q) [boxLine k q] := U.line (clean_box k hk q)

theorem u_hires (hg : ∀ x, Clean (g x)) (q : Quad K) : U (hiresLine g q) [hiresLine g q] := U.line (clean_hires g hg q)

theorem u_boxes (hg : ∀ x, Clean (g x)) (b : BBox K) :
    U (match b with
      | some q => boxLine "%%BoundingBox: " q ++ hiresLine g q
      | none => []) (boxComments g b) := by
  cases b with
  | none => exact U.nil
  | some q => exact (u_box _ (clean_of (by decide)) q).append (u_hires g hg q)

theorem u_info (version date : Str) (title : Option Str) (hv : Clean version) (hd : Clean date) (ht : ∀ t, title = some t → Clean t) :
    U (info version date title) (infoComments version date title) := by
  unfold info infoComments
  refine (U.append (U.append (U.line (clean_append (clean_of (by decide)) hv)) ?_) (U.line (clean_append (clean_of (by decide)) hd)))
  cases title with
  | none => exact U.nil
  | some t => exact U.line (clean_append (clean_of (by decide)) (ht t rfl))

theorem clean_paper (f : Paper K) (h : Clean f.label) : Clean (paperText f) := by
  have hs : Clean (lit " ") := clean_of (by decide)
  exact clean_append (clean_append (clean_append (clean_append (clean_append h hs) (clean_int _)) hs) (clean_int _)) (clean_of (by decide))

theorem u_media_rest : ∀ fs : List (Paper K), (∀ f ∈ fs, Clean f.label) → U (mediaText false fs) (fs.map fun f => line (lit "%%+ " ++ paperText f))
  | [], _ => U.nil
  | f :: fs, h => by
    have h1 : U (line (lit "%%+ " ++ paperText f)) [line (lit "%%+ " ++ paperText f)] :=
      U.line (clean_append (clean_of (by decide)) (clean_paper f (h f (by simp))))
    have h2 := h1.append (u_media_rest fs fun f hf => h f (by simp [hf]))
    simpa [mediaText, paperText] using h2

theorem u_media (fs : List (Paper K)) (h : ∀ f ∈ fs, Clean f.label) : U (mediaText true fs) (mediaComments fs) := by
  cases fs with
  | nil => exact U.nil
  | cons f fs =>
    have h1 : U (line (lit "%%DocumentMedia: " ++ paperText f)) [line (lit "%%DocumentMedia: " ++ paperText f)] :=
      U.line (clean_append (clean_of (by decide)) (clean_paper f (h f (by simp))))
    have h2 := h1.append (u_media_rest fs fun f hf => h f (by simp [hf]))
    simpa [mediaText, mediaComments, paperText] using h2

theorem body_boxes (b : BBox K) : Body false (boxComments g b) := by
  cases b with
  | none => exact Body.nil _
  | some q => exact body_append (body_one (kind_box _ (by decide) q)) (body_one (kind_hires g q))

theorem body_info (version date : Str) (title : Option Str) : Body false (infoComments version date title) := by
  unfold infoComments
  refine body_append (body_append (body_one (kindLine _ _ (by decide))) ?_) (body_one (kindLine _ _ (by decide)))
  cases title with
  | none => exact Body.nil _
  | some t => exact body_one (kindLine _ _ (by decide))

theorem body_media (fs : List (Paper K)) : Body false (mediaComments fs) := by
  cases fs with
  | nil => exact Body.nil _
  | cons f fs =>
    refine Body.plain _ _ _ (Or.inl (kindLine _ _ (by decide))) ?_
    induction fs with
    | nil => exact Body.nil _
    | cons f fs ih => exact Body.plain _ _ _ (Or.inl (kindLine _ _ (by decide))) ih

theorem papers_mem {ps : List (Page K)} {f : Paper K} (h : f ∈ papers ps) : ∃ p ∈ ps, p.paper = some f := by
  unfold papers at h
  have key : ∀ (l acc : List (Paper K)), f ∈ l.foldl (fun l f => if l.any fun x => decide (x.ident = f.ident) then l else l ++ [f]) acc → f ∈ acc ∨ f ∈ l := by
    intro l
    induction l with
    | nil => intro acc h; exact Or.inl h
    | cons a l ih =>
      intro acc h
      rw [List.foldl_cons] at h
      rcases ih _ h with h | h
      · split_ifs at h with hc
        · exact Or.inl h
        · rcases List.mem_append.1 h with h | h
          · exact Or.inl h
          · rw [List.mem_singleton] at h; exact Or.inr (by simp [h])
      · exact Or.inr (by simp [h])
  rcases key _ [] h with h | h
  · simp at h
  · rw [List.mem_filterMap] at h
    exact h

theorem u_header {version date : Str} {title : Option Str} {prolog : Str} {ps : List (Page K)} (h : Fine g version date title prolog ps) (writebbox : Bool) :
    U (line (lit "%!PS-Adobe-3.0") ++ (match docBBox ps, writebbox with
      | some q, true => boxLine "%%BoundingBox: " q ++ hiresLine g q
      | _, _ => []) ++ info version date title ++ mediaText true (papers ps) ++ line (lit "%%Pages: " ++ nat ps.length) ++
      line (lit "%%PageOrder: Ascend")) (psHeader g version date title writebbox ps) := by
  unfold psHeader
  rw [show ([line (lit "%%Pages: " ++ nat ps.length), line (lit "%%PageOrder: Ascend")] : List Str) =
    [line (lit "%%Pages: " ++ nat ps.length)] ++ [line (lit "%%PageOrder: Ascend")] from rfl, ← List.append_assoc]
  refine U.append (U.append (U.append (U.append (U.append (U.line (clean_of (by decide))) ?_) (u_info _ _ _ h.version h.date h.title)) (u_media _ ?_))
    (U.line (clean_append (clean_of (by decide)) (clean_nat _)))) (U.line (clean_of (by decide)))
  · cases writebbox with
    | false => cases docBBox ps <;> exact U.nil
    | true =>
      have := u_boxes g h.number (docBBox ps)
      cases e : docBBox ps with
      | none => exact U.nil
      | some q => rw [e] at this; exact this
  · intro f hf
    obtain ⟨p, hp, e⟩ := papers_mem hf
    exact h.papers p hp f e

theorem body_header (version date : Str) (title : Option Str) (writebbox : Bool) (ps : List (Page K)) : Body false (psHeader g version date title writebbox ps) := by
  unfold psHeader
  refine body_append (body_append (body_append (body_append (body_one (kindLine' _ (by decide))) ?_) (body_info _ _ _)) (body_media _))
    (Body.plain _ _ _ (Or.inl (kindLine _ _ (by decide))) (body_one (kindLine' _ (by decide))))
  cases writebbox with
  | false => exact Body.nil _
  | true => exact body_boxes g _

/-! ## Pages -/

/-- The comments of a page. -/
def pageComments (writebbox : Bool) (p : Page K) : List Str :=
  (p.paper.map fun f => line (lit "%%PageMedia: " ++ f.label)).toList ++
    [line (lit "%%PageOrientation: " ++ if p.rotated then lit "Landscape" else lit "Portrait")] ++
    if writebbox then (p.bbox.map fun q => boxLine "%%PageBoundingBox: " q).toList else []

/-- The first line of a page. -/
def pageLine (nr : ℕ) (p : Page K) : Str := line (lit "%%Page: " ++ p.label nr ++ lit " " ++ nat (nr + 1))

/-- The sections of a page. -/
def pageSecs (writebbox : Bool) (nr : ℕ) (p : Page K) : List (Str × List Str) :=
  [(pageLine nr p, pageComments writebbox p), (line (lit "%%BeginPageSetup"), [line (lit "/pgsave save def")]),
    (line (lit "%%EndPageSetup"), linesOf p.content ++ [line (lit "pgsave restore"), line (lit "showpage")]), (line (lit "%%PageTrailer"), [])]

theorem clean_label {nr : ℕ} {p : Page K} (h : ∀ n, p.name = some n → Clean n) : Clean (p.label nr) := by
  unfold Page.label
  cases e : p.name with
  | none => exact clean_nat _
  | some n => exact h n e

theorem u_page (writebbox : Bool) (nr : ℕ) (p : Page K) (h1 : ∀ n, p.name = some n → Clean n) (h2 : ∀ f, p.paper = some f → Clean f.label)
    (h3 : Ended p.content) : U (pageText writebbox nr p) ([pageLine nr p] ++ pageComments writebbox p ++ [line (lit "%%BeginPageSetup")] ++
      [line (lit "/pgsave save def")] ++ [line (lit "%%EndPageSetup")] ++ linesOf p.content ++ [line (lit "pgsave restore")] ++ [line (lit "showpage")] ++
      [line (lit "%%PageTrailer")]) := by
  unfold pageText pageComments
  rw [← List.append_assoc, ← List.append_assoc]
  refine U.append (U.append (U.append (U.append (U.append (U.append (U.append (U.append (U.append (U.append ?_ ?_) ?_) ?_) (U.line (clean_of (by decide))))
    (U.line (clean_of (by decide)))) (U.line (clean_of (by decide)))) (U.self h3)) (U.line (clean_of (by decide)))) (U.line (clean_of (by decide))))
    (U.line (clean_of (by decide)))
  · exact U.line (clean_append (clean_append (clean_append (clean_of (by decide)) (clean_label h1)) (clean_of (by decide))) (clean_nat _))
  · cases e : p.paper with
    | none => exact U.nil
    | some f => exact U.line (clean_append (clean_of (by decide)) (h2 f e))
  · refine U.line (clean_append (clean_of (by decide)) ?_)
    cases p.rotated
    · exact clean_of (by decide)
    · exact clean_of (by decide)
  · cases writebbox with
    | false => cases p.bbox <;> exact U.nil
    | true =>
      cases p.bbox with
      | none => exact U.nil
      | some q => exact u_box _ (clean_of (by decide)) q

theorem body_pageComments (writebbox : Bool) (p : Page K) : Body false (pageComments writebbox p) := by
  unfold pageComments
  refine body_append (body_append ?_ (body_one (kindLine _ _ (by decide)))) ?_
  · cases p.paper with
    | none => exact Body.nil _
    | some f => exact body_one (kindLine _ _ (by decide))
  · cases writebbox with
    | false => exact Body.nil _
    | true =>
      cases p.bbox with
      | none => exact Body.nil _
      | some q => exact body_one (kind_box _ (by decide) q)

theorem kindTop (k t : Str) (h : (openKeys ++ closeKeys ++ [dataKey]).all (clash · k) = true) (h2 : startsWithAny topKeys k = true) :
    kind (line (k ++ t)) = .top := by
  unfold line
  rw [List.append_assoc]
  exact kind_top k _ h h2

theorem kindTop' (k : Str) (h : (openKeys ++ closeKeys ++ [dataKey]).all (clash · k) = true) (h2 : startsWithAny topKeys k = true) :
    kind (line k) = .top := kind_top k _ h h2

theorem kind_pageLine (nr : ℕ) (p : Page K) : kind (pageLine nr p) = .top := by
  unfold pageLine
  have := kindTop (lit "%%Page: ") (p.label nr ++ lit " " ++ nat (nr + 1)) (by decide) (by decide)
  simpa using this

theorem secs_page (writebbox : Bool) (nr : ℕ) (p : Page K) (hb : Body false (linesOf p.content)) (rest : List Str) (hr : (secs rest).1 = []) :
    secs ([pageLine nr p] ++ pageComments writebbox p ++ [line (lit "%%BeginPageSetup")] ++
      [line (lit "/pgsave save def")] ++ [line (lit "%%EndPageSetup")] ++ linesOf p.content ++ [line (lit "pgsave restore")] ++ [line (lit "showpage")] ++
      [line (lit "%%PageTrailer")] ++ rest) = ([], pageSecs writebbox nr p ++ (secs rest).2) := by
  have k1 := kindTop' (lit "%%BeginPageSetup") (by decide) (by decide)
  have k2 := kindLine' (lit "/pgsave save def") (by decide)
  have k3 := kindTop' (lit "%%EndPageSetup") (by decide) (by decide)
  have k4 := kindLine' (lit "pgsave restore") (by decide)
  have k5 := kindLine' (lit "showpage") (by decide)
  have k6 := kindTop' (lit "%%PageTrailer") (by decide) (by decide)
  simp only [List.append_assoc, List.cons_append, List.nil_append]
  rw [secs_top (kind_pageLine nr p), secs_body (body_pageComments writebbox p), secs_top k1, secs_plain k2, secs_top k3, secs_body hb, secs_plain k4,
    secs_plain k5, secs_top k6, hr]
  simp [pageSecs]

/-- The lines of all pages. -/
def pagesLines (writebbox : Bool) : ℕ → List (Page K) → List Str
  | _, [] => []
  | nr, p :: ps => linesOf (pageText writebbox nr p) ++ pagesLines writebbox (nr + 1) ps

theorem u_pages (writebbox : Bool) : ∀ (ps : List (Page K)) (nr : ℕ), (∀ p ∈ ps, (∀ n, p.name = some n → Clean n) ∧
    (∀ f, p.paper = some f → Clean f.label) ∧ Ended p.content) → U (pagesText writebbox nr ps) (pagesLines writebbox nr ps)
  | [], _, _ => U.nil
  | p :: ps, nr, h => by
    obtain ⟨h1, h2, h3⟩ := h p (by simp)
    exact U.append (U.self (u_page writebbox nr p h1 h2 h3).ended) (u_pages writebbox ps (nr + 1) fun p hp => h p (by simp [hp]))

theorem secs_pages (writebbox : Bool) (rest : List Str) (hr : (secs rest).1 = []) : ∀ (ps : List (Page K)) (nr : ℕ),
    (∀ p ∈ ps, (∀ n, p.name = some n → Clean n) ∧ (∀ f, p.paper = some f → Clean f.label) ∧ Ended p.content) →
    (∀ p ∈ ps, Body false (linesOf p.content)) →
    secs (pagesLines writebbox nr ps ++ rest) = ([], ((ps.zipIdx nr).flatMap fun x => pageSecs writebbox x.2 x.1) ++ (secs rest).2)
  | [], _, _, _ => by
    have e : secs rest = ([], (secs rest).2) := Prod.ext hr rfl
    simpa [pagesLines] using e
  | p :: ps, nr, h, hb => by
    obtain ⟨h1, h2, h3⟩ := h p (by simp)
    have ih := secs_pages writebbox rest hr ps (nr + 1) (fun p hp => h p (by simp [hp])) fun p hp => hb p (by simp [hp])
    rw [pagesLines, List.append_assoc, (u_page writebbox nr p h1 h2 h3).lines, secs_page writebbox nr p (hb p (by simp)) _ (by rw [ih]), ih]
    simp

/-! ## The file -/

/-- **C149.** The file is read as its header, the prolog and the pages. -/
theorem ps_sections (version date : Str) (title : Option Str) (writebbox : Bool) (prolog : Str) (ps : List (Page K)) (h : Fine g version date title prolog ps) :
    sections (writePS g version date title writebbox prolog ps) = (psHeader g version date title writebbox ps,
      [(line (lit "%%EndComments"), []), (line (lit "%%BeginProlog"), linesOf prolog), (line (lit "%%EndProlog"), [])] ++
      ((ps.zipIdx).flatMap fun x => pageSecs writebbox x.2 x.1) ++ [(line (lit "%%Trailer"), []), (line (lit "%%EOF"), [])]) := by
  have hp : ∀ p ∈ ps, (∀ n, p.name = some n → Clean n) ∧ (∀ f, p.paper = some f → Clean f.label) ∧ Ended p.content :=
    fun p hp => ⟨h.names p hp, h.papers p hp, (h.contents p hp).1⟩
  have hu : U (writePS g version date title writebbox prolog ps) (psHeader g version date title writebbox ps ++ [line (lit "%%EndComments")] ++
      [line (lit "%%BeginProlog")] ++ linesOf prolog ++ [line (lit "%%EndProlog")] ++ pagesLines writebbox 0 ps ++ [line (lit "%%Trailer")] ++
      [line (lit "%%EOF")]) := by
    unfold writePS
    exact U.append (U.append (U.append (U.append (U.append (U.append (U.append (u_header g h writebbox) (U.line (clean_of (by decide))))
      (U.line (clean_of (by decide)))) (U.self h.prolog.1)) (U.line (clean_of (by decide)))) (u_pages writebbox ps 0 hp)) (U.line (clean_of (by decide))))
      (U.line (clean_of (by decide)))
  have k1 := kindTop' (lit "%%EndComments") (by decide) (by decide)
  have k2 := kindTop' (lit "%%BeginProlog") (by decide) (by decide)
  have k3 := kindTop' (lit "%%EndProlog") (by decide) (by decide)
  have k4 := kindTop' (lit "%%Trailer") (by decide) (by decide)
  have k5 := kindTop' (lit "%%EOF") (by decide) (by decide)
  have hend : secs [line (lit "%%Trailer"), line (lit "%%EOF")] = ([], [(line (lit "%%Trailer"), []), (line (lit "%%EOF"), [])]) := by
    rw [secs_top k4, secs_top k5]; rfl
  have hpages := secs_pages writebbox [line (lit "%%Trailer"), line (lit "%%EOF")] (by rw [hend]) ps 0 hp fun p hp => (h.contents p hp).2
  unfold sections
  rw [hu.lines]
  change secs _ = _
  simp only [List.append_assoc, List.cons_append, List.nil_append]
  rw [secs_body (body_header g version date title writebbox ps), secs_top k1, secs_top k2, secs_body h.prolog.2, secs_top k3, hpages, hend]
  simp

theorem readLabel_page (nr : ℕ) (p : Page K) : readLabel (pageLine nr p) = (p.label nr, nr + 1) := by
  have hd : (pageLine nr p).drop 8 = line (p.label nr ++ lit " " ++ nat (nr + 1)) := rfl
  have hn : ∀ c ∈ (nat (nr + 1)).reverse, (c != ' ') = true := by
    intro c hc
    have h : c.isDigit = true := Nat.isDigit_of_mem_toDigits (by decide) (by decide) (List.mem_reverse.1 hc)
    rw [bne_iff_ne]; rintro rfl; exact absurd h (by decide)
  unfold readLabel
  rw [hd]
  simp only [line, List.dropLast_concat, List.reverse_append]
  rw [List.dropWhile_append_of_pos hn, List.takeWhile_append_of_pos hn]
  have e1 : (lit " ").reverse = [' '] := rfl
  rw [e1]
  simp only [List.cons_append, List.nil_append, bne_self_eq_false, List.dropWhile_cons, List.takeWhile_cons, Bool.false_eq_true, if_false, List.drop_succ_cons,
    List.drop_zero, List.reverse_reverse, List.append_nil]
  rw [show Nat.ofDigitChars 10 (nat (nr + 1)) 0 = nr + 1 from Nat.ofDigitChars_ten_toDigits]

/-- What is read of page `nr`. -/
def pageRead (writebbox : Bool) (nr : ℕ) (p : Page K) : ReadPage :=
  ⟨p.label nr, nr + 1, pageComments writebbox p,
    line (lit "/pgsave save def") :: (linesOf p.content ++ [line (lit "pgsave restore"), line (lit "showpage")])⟩

theorem pagesOf_page (writebbox : Bool) (nr : ℕ) (p : Page K) (rest : List (Str × List Str)) :
    pagesOf (pageSecs writebbox nr p ++ rest) = pageRead writebbox nr p :: pagesOf rest := by
  have e0 : (lit "%%Page:").isPrefixOf (pageLine nr p) = true := by
    rw [List.isPrefixOf_iff_prefix]
    exact ⟨line (lit " " ++ p.label nr ++ lit " " ++ nat (nr + 1)), rfl⟩
  have e1 : (lit "%%Page:").isPrefixOf (line (lit "%%BeginPageSetup")) = false := by decide
  have e2 : (lit "%%Page:").isPrefixOf (line (lit "%%EndPageSetup")) = false := by decide
  have e3 : (lit "%%Page:").isPrefixOf (line (lit "%%PageTrailer")) = false := by decide
  have f1 : ((lit "%%PageTrailer").isPrefixOf (line (lit "%%BeginPageSetup")) || (lit "%%Page:").isPrefixOf (line (lit "%%BeginPageSetup")) ||
    (lit "%%Trailer").isPrefixOf (line (lit "%%BeginPageSetup"))) = false := by decide
  have f2 : ((lit "%%PageTrailer").isPrefixOf (line (lit "%%EndPageSetup")) || (lit "%%Page:").isPrefixOf (line (lit "%%EndPageSetup")) ||
    (lit "%%Trailer").isPrefixOf (line (lit "%%EndPageSetup"))) = false := by decide
  have f3 : ((lit "%%PageTrailer").isPrefixOf (line (lit "%%PageTrailer")) || (lit "%%Page:").isPrefixOf (line (lit "%%PageTrailer")) ||
    (lit "%%Trailer").isPrefixOf (line (lit "%%PageTrailer"))) = true := by decide
  have u1 : ∀ ls r, uptoTrailer ((line (lit "%%BeginPageSetup"), ls) :: r) = ls ++ uptoTrailer r := fun ls r => by rw [uptoTrailer, f1]; rfl
  have u2 : ∀ ls r, uptoTrailer ((line (lit "%%EndPageSetup"), ls) :: r) = ls ++ uptoTrailer r := fun ls r => by rw [uptoTrailer, f2]; rfl
  have u3 : ∀ ls r, uptoTrailer ((line (lit "%%PageTrailer"), ls) :: r) = [] := fun ls r => by rw [uptoTrailer, f3]; rfl
  unfold pageSecs
  simp only [List.cons_append, List.nil_append, pagesOf, e0, e1, e2, e3, if_true, Bool.false_eq_true, if_false, u1, u2, u3, readLabel_page]
  simp [pageRead]

/-- **C149.** The pages of the file are the pages of the document, in their order, each with its name, its number counted from one, its paper format, its
orientation and (if asked for) its bounding box, and executing exactly what was drawn between saving and restoring the state, and then showing the page. -/
theorem ps_pages (version date : Str) (title : Option Str) (writebbox : Bool) (prolog : Str) (ps : List (Page K)) (h : Fine g version date title prolog ps) :
    pagesOf (sections (writePS g version date title writebbox prolog ps)).2 = (ps.zipIdx).map fun x => pageRead writebbox x.2 x.1 := by
  rw [ps_sections g version date title writebbox prolog ps h]
  have e1 : (lit "%%Page:").isPrefixOf (line (lit "%%EndComments")) = false := by decide
  have e2 : (lit "%%Page:").isPrefixOf (line (lit "%%BeginProlog")) = false := by decide
  have e3 : (lit "%%Page:").isPrefixOf (line (lit "%%EndProlog")) = false := by decide
  have e4 : (lit "%%Page:").isPrefixOf (line (lit "%%Trailer")) = false := by decide
  have e5 : (lit "%%Page:").isPrefixOf (line (lit "%%EOF")) = false := by decide
  simp only [List.cons_append, List.nil_append, pagesOf, e1, e2, e3, Bool.false_eq_true, if_false]
  have key : ∀ l : List (Page K × ℕ), pagesOf ((l.flatMap fun x => pageSecs writebbox x.2 x.1) ++ [(line (lit "%%Trailer"), []), (line (lit "%%EOF"), [])]) =
      l.map fun x => pageRead writebbox x.2 x.1 := by
    intro l
    induction l with
    | nil => simp only [List.flatMap_nil, List.nil_append, pagesOf, e4, e5, Bool.false_eq_true, if_false, List.map_nil]
    | cons x l ih => rw [List.flatMap_cons, List.append_assoc, pagesOf_page, ih, List.map_cons]
  exact key _

/-- **C149.** The number of pages announced in the header is the number of pages which follow. -/
theorem ps_count (version date : Str) (title : Option Str) (writebbox : Bool) (prolog : Str) (ps : List (Page K)) (h : Fine g version date title prolog ps) :
    ∃ l ∈ (sections (writePS g version date title writebbox prolog ps)).1, l = line (lit "%%Pages: " ++ nat ps.length) ∧
      firstNumber l = (pagesOf (sections (writePS g version date title writebbox prolog ps)).2).length := by
  refine ⟨line (lit "%%Pages: " ++ nat ps.length), ?_, rfl, ?_⟩
  · rw [ps_sections g version date title writebbox prolog ps h]
    simp [psHeader]
  · rw [ps_pages g version date title writebbox prolog ps h, List.length_map, List.length_zipIdx]
    have hd : ∀ c ∈ nat ps.length, c.isDigit = true := fun c hc => Nat.isDigit_of_mem_toDigits (by decide) (by decide) hc
    have e : (line (lit "%%Pages: " ++ nat ps.length)).dropWhile (fun c => !c.isDigit) = nat ps.length ++ ['\n'] := by
      unfold line
      rw [List.append_assoc, List.dropWhile_append_of_pos (by decide)]
      cases e : nat ps.length with
      | nil => exact absurd e Nat.toDigits_ne_nil
      | cons c cs =>
        rw [List.cons_append, List.dropWhile_cons, hd c (by rw [e]; simp)]; rfl
    unfold firstNumber
    rw [e, List.takeWhile_append_of_pos hd]
    have e2 : List.takeWhile Char.isDigit ['\n'] = [] := by decide
    rw [e2, List.append_nil]
    exact Nat.ofDigitChars_ten_toDigits

/-- The union of the boxes of the pages. -/
theorem docBBox_sub (ps : List (Page K)) : ∀ p ∈ ps, BBox.Sub p.bbox (docBBox ps) := by
  have key : ∀ (l : List (Page K)) (b : BBox K), BBox.Sub b (l.foldl (fun b p => BBox.iadd b p.bbox) b) ∧
      ∀ p ∈ l, BBox.Sub p.bbox (l.foldl (fun b p => BBox.iadd b p.bbox) b) := by
    intro l
    induction l with
    | nil => intro b; exact ⟨fun _ _ h => h, by simp⟩
    | cons a l ih =>
      intro b
      rw [List.foldl_cons]
      obtain ⟨h1, h2⟩ := ih (BBox.iadd b a.bbox)
      have h3 := BBox.add_upper b a.bbox
      rw [← BBox.iadd_eq_add] at h3
      refine ⟨fun x y h => h1 x y (h3.1 x y h), fun p hp => ?_⟩
      rcases List.mem_cons.1 hp with rfl | hp
      · exact fun x y h => h1 x y (h3.2 x y h)
      · exact h2 p hp
  exact (key ps none).2

/-- **C149.** A bounding box in the header contains the boxes of all pages, and there is one if it is asked for and something was drawn. -/
theorem ps_bbox (version date : Str) (title : Option Str) (prolog : Str) (ps : List (Page K)) (h : Fine g version date title prolog ps) (p : Page K)
    (hp : p ∈ ps) (x y : K) (hxy : BBox.Mem x y p.bbox) : ∃ q : Quad K, boxLine "%%BoundingBox: " q ∈
      (sections (writePS g version date title true prolog ps)).1 ∧ (⌊q.llx⌋ : K) ≤ x ∧ x ≤ ⌈q.urx⌉ ∧ (⌊q.lly⌋ : K) ≤ y ∧ y ≤ ⌈q.ury⌉ := by
  have hm := docBBox_sub ps p hp x y hxy
  cases e : docBBox ps with
  | none => rw [e] at hm; exact hm.elim
  | some q =>
    rw [e] at hm
    refine ⟨q, ?_, (Int.floor_le _).trans hm.1, hm.2.1.trans (Int.le_ceil _), (Int.floor_le _).trans hm.2.2.1, hm.2.2.2.trans (Int.le_ceil _)⟩
    rw [ps_sections g version date title true prolog ps h]
    simp [psHeader, e, boxComments]

/-- **C149.** Each paper format used is listed once in the header. -/
theorem papers_spec (ps : List (Page K)) : (∀ p ∈ ps, ∀ f, p.paper = some f → ∃ f' ∈ papers ps, f'.ident = f.ident) ∧
    ((papers ps).map (·.ident)).Nodup ∧ ∀ f ∈ papers ps, ∃ p ∈ ps, p.paper = some f := by
  have key : ∀ (l acc : List (Paper K)), (acc.map (·.ident)).Nodup →
      let r := l.foldl (fun l f => if l.any fun x => decide (x.ident = f.ident) then l else l ++ [f]) acc
      (r.map (·.ident)).Nodup ∧ (∀ f ∈ acc, f ∈ r) ∧ ∀ f ∈ l, ∃ f' ∈ r, f'.ident = f.ident := by
    intro l
    induction l with
    | nil => intro acc h; exact ⟨h, fun _ h => h, by simp⟩
    | cons a l ih =>
      intro acc h
      simp only [List.foldl_cons]
      by_cases hc : (acc.any fun x => decide (x.ident = a.ident)) = true
      · rw [if_pos hc]
        obtain ⟨h1, h2, h3⟩ := ih acc h
        refine ⟨h1, h2, fun f hf => ?_⟩
        rcases List.mem_cons.1 hf with rfl | hf
        · obtain ⟨x, hx, e⟩ := List.any_eq_true.1 hc
          exact ⟨x, h2 x hx, of_decide_eq_true e⟩
        · exact h3 f hf
      · rw [if_neg hc]
        have hn : (List.map (·.ident) (acc ++ [a])).Nodup := by
          rw [List.map_append, List.nodup_append]
          refine ⟨h, by simp, ?_⟩
          intro i hi j hj
          simp only [List.map_cons, List.map_nil, List.mem_singleton] at hj
          obtain ⟨x, hx, rfl⟩ := List.mem_map.1 hi
          rintro e
          exact hc (List.any_eq_true.2 ⟨x, hx, decide_eq_true (e.trans hj)⟩)
        obtain ⟨h1, h2, h3⟩ := ih _ hn
        refine ⟨h1, fun f hf => h2 f (by simp [hf]), fun f hf => ?_⟩
        rcases List.mem_cons.1 hf with rfl | hf
        · exact ⟨f, h2 f (by simp), rfl⟩
        · exact h3 f hf
  obtain ⟨h1, _, h3⟩ := key (ps.filterMap (·.paper)) [] (by simp)
  exact ⟨fun p hp f e => h3 f (List.mem_filterMap.2 ⟨p, hp, e⟩), h1, fun f hf => papers_mem hf⟩

end Files

end PyX.PSFile
