import Verif.Document.PSFileProps

/-!
# C149, continued: what is included in PostScript files; EPS files; resources; options
-/

set_option linter.unusedSectionVars false

namespace PyX.PSFile

open Eps (linesOf)

/-! ## Included texts -/

theorem kindOpen (k t : Str) (h : startsWithAny openKeys k = true) : kind (line (k ++ t)) = .opens := by
  unfold line
  rw [List.append_assoc]
  exact kind_opens k _ h

/-- Lines without a keyword do not disturb. -/
theorem plain_body (i : Bool) (ls : List Str) (h : ∀ l ∈ ls, ¬ lit "%%" <+: l) : Body i ls := by
  induction ls with
  | nil => exact Body.nil _
  | cons l ls ih =>
    refine Body.plain _ _ _ (Or.inl ?_) (ih fun l hl => h l (by simp [hl]))
    have hl := h l (by simp)
    have none : ∀ k : Str, lit "%%" <+: k → k.isPrefixOf l = false := by
      intro k hk
      cases e : k.isPrefixOf l with
      | false => rfl
      | true => exact absurd (hk.trans (List.isPrefixOf_iff_prefix.1 e)) hl
    have any : ∀ ks : List Str, (∀ k ∈ ks, lit "%%" <+: k) → startsWithAny ks l = false := by
      intro ks hks
      unfold startsWithAny
      rw [List.any_eq_false]
      intro k hk
      rw [none k (hks k hk)]; decide
    unfold kind
    rw [any openKeys (by decide), any closeKeys (by decide), none dataKey (by decide), any topKeys (by decide)]
    rfl

/-- Whatever may be in a page may also be in an included document. -/
theorem body_inside {i : Bool} {ls : List Str} (h : Body i ls) : Body true ls := by
  induction h with
  | nil i => exact Body.nil _
  | plain i l ls hl _ ih => exact Body.plain _ _ _ (hl.imp id fun h => ⟨rfl, h.2⟩) ih
  | nested i b e xs ls h1 h2 h3 _ _ ih => exact Body.nested _ b e xs ls h1 h2 h3 ih
  | data i b xs ls h1 _ ih => exact Body.data _ b xs ls h1 ih

/-- **C149.** An included EPS file which ends with a line end does not disturb the structure of the file around it, whatever structure comments it has itself,
if what it includes is closed. -/
theorem embed_body (i : Bool) (setup filename data : Str) (hs : Ended setup ∧ Body i (linesOf setup)) (hf : Clean filename) (hd : Ended data)
    (hb : Body true (linesOf data)) : Ended (embed setup filename data) ∧ Body i (linesOf (embed setup filename data)) := by
  have hu : U (embed setup filename data) ([line (lit "BeginEPSF")] ++ linesOf setup ++ [line (lit "%%BeginDocument: " ++ filename)] ++ linesOf data ++
      [line (lit "%%EndDocument")] ++ [line (lit "EndEPSF")]) := by
    unfold embed
    exact U.append (U.append (U.append (U.append (U.append (U.line (clean_of (by decide))) (U.self hs.1))
      (U.line (clean_append (clean_of (by decide)) hf))) (U.self hd)) (U.line (clean_of (by decide)))) (U.line (clean_of (by decide)))
  refine ⟨hu.ended, ?_⟩
  rw [hu.lines]
  have k1 := kindLine' (lit "BeginEPSF") (by decide)
  have k2 := kindLine' (lit "EndEPSF") (by decide)
  have k3 : kind (line (lit "%%EndDocument")) = .closes := by decide
  have k4 := kindOpen (lit "%%BeginDocument: ") filename (by decide)
  simp only [List.append_assoc, List.cons_append, List.nil_append]
  exact Body.plain _ _ _ (Or.inl k1) (body_append hs.2 (Body.nested _ _ _ _ _ k4 k3 hb (Body.plain _ _ _ (Or.inl k2) (Body.nil _))))

/-- **C149.** So do definitions and fonts in the prolog. -/
theorem definition_body (id body : Str) (hi : Clean id) (hb : Body true (linesOf (body ++ line (lit " /" ++ id ++ lit " exch def")))) :
    Ended (definition id body) ∧ Body false (linesOf (definition id body)) := by
  have he : Ended (body ++ line (lit " /" ++ id ++ lit " exch def")) := ended_append_line _ _
  have hu : U (line (lit "%%BeginResource: " ++ id) ++ (body ++ line (lit " /" ++ id ++ lit " exch def")) ++ line (lit "%%EndResource"))
      ([line (lit "%%BeginResource: " ++ id)] ++ linesOf (body ++ line (lit " /" ++ id ++ lit " exch def")) ++ [line (lit "%%EndResource")]) :=
    U.append (U.append (U.line (clean_append (clean_of (by decide)) hi)) (U.self he)) (U.line (clean_of (by decide)))
  have e : definition id body = line (lit "%%BeginResource: " ++ id) ++ (body ++ line (lit " /" ++ id ++ lit " exch def")) ++ line (lit "%%EndResource") := by
    simp [definition]
  rw [e]
  refine ⟨hu.ended, ?_⟩
  rw [hu.lines]
  have k3 : kind (line (lit "%%EndResource")) = .closes := by decide
  exact Body.nested _ _ _ _ [] (kindOpen (lit "%%BeginResource: ") id (by decide)) k3 hb (Body.nil _)

theorem font_body (name comments font : Str) (hn : Clean name) (hb : Body true (linesOf (comments ++ font ++ ['\n']))) :
    Ended (fontResource name comments font) ∧ Body false (linesOf (fontResource name comments font)) := by
  have he : Ended (comments ++ font ++ ['\n']) := Or.inr ⟨_, rfl⟩
  have hu : U (line (lit "%%BeginFont: " ++ name) ++ (comments ++ font ++ ['\n']) ++ line (lit "%%EndFont"))
      ([line (lit "%%BeginFont: " ++ name)] ++ linesOf (comments ++ font ++ ['\n']) ++ [line (lit "%%EndFont")]) :=
    U.append (U.append (U.line (clean_append (clean_of (by decide)) hn)) (U.self he)) (U.line (clean_of (by decide)))
  have e : fontResource name comments font = line (lit "%%BeginFont: " ++ name) ++ (comments ++ font ++ ['\n']) ++ line (lit "%%EndFont") := by
    simp [fontResource]
  rw [e]
  refine ⟨hu.ended, ?_⟩
  rw [hu.lines]
  have k3 : kind (line (lit "%%EndFont")) = .closes := by decide
  exact Body.nested _ _ _ _ [] (kindOpen (lit "%%BeginFont: ") name (by decide)) k3 hb (Body.nil _)

section Files

variable {K : Type} [Field K] [LinearOrder K] [IsStrictOrderedRing K] [FloorRing K] (g : K → Str)

/-! ## EPS files -/

/-- The lines of an EPS file. -/
theorem u_eps (version date : Str) (title : Option Str) (prolog : Str) (p : Page K) (h : Fine g version date title prolog [p]) (s : Str)
    (hs : writeEPS g version date title prolog [p] = some s) :
    U s ([line (lit "%!PS-Adobe-3.0 EPSF-3.0")] ++ boxComments g p.bbox ++ infoComments version date title ++ [line (lit "%%EndComments")] ++
      [line (lit "%%BeginProlog")] ++ linesOf prolog ++ [line (lit "%%EndProlog")] ++ linesOf p.content ++ [line (lit "showpage")] ++
      [line (lit "%%Trailer")] ++ [line (lit "%%EOF")]) := by
  unfold writeEPS at hs
  injection hs with hs
  subst hs
  exact U.append (U.append (U.append (U.append (U.append (U.append (U.append (U.append (U.append (U.append (U.line (clean_of (by decide)))
    (u_boxes g h.number p.bbox)) (u_info _ _ _ h.version h.date h.title)) (U.line (clean_of (by decide)))) (U.line (clean_of (by decide))))
    (U.self h.prolog.1)) (U.line (clean_of (by decide)))) (U.self (h.contents p (by simp)).1)) (U.line (clean_of (by decide))))
    (U.line (clean_of (by decide)))) (U.line (clean_of (by decide)))

/-- **C149.** An EPS file is read as its comments, its prolog and its contents. -/
theorem eps_sections (version date : Str) (title : Option Str) (prolog : Str) (p : Page K) (h : Fine g version date title prolog [p]) (s : Str)
    (hs : writeEPS g version date title prolog [p] = some s) :
    sections s = ([line (lit "%!PS-Adobe-3.0 EPSF-3.0")] ++ boxComments g p.bbox ++ infoComments version date title,
      [(line (lit "%%EndComments"), []), (line (lit "%%BeginProlog"), linesOf prolog), (line (lit "%%EndProlog"), linesOf p.content ++ [line (lit "showpage")]),
        (line (lit "%%Trailer"), []), (line (lit "%%EOF"), [])]) := by
  have k1 := kindTop' (lit "%%EndComments") (by decide) (by decide)
  have k2 := kindTop' (lit "%%BeginProlog") (by decide) (by decide)
  have k3 := kindTop' (lit "%%EndProlog") (by decide) (by decide)
  have k4 := kindTop' (lit "%%Trailer") (by decide) (by decide)
  have k5 := kindTop' (lit "%%EOF") (by decide) (by decide)
  have k6 := kindLine' (lit "showpage") (by decide)
  have k7 := kindLine' (lit "%!PS-Adobe-3.0 EPSF-3.0") (by decide)
  unfold sections
  rw [(u_eps g version date title prolog p h s hs).lines]
  change secs _ = _
  simp only [List.append_assoc, List.cons_append, List.nil_append]
  rw [secs_plain k7, secs_body (body_boxes g p.bbox), secs_body (body_info version date title), secs_top k1, secs_top k2, secs_body h.prolog.2, secs_top k3,
    secs_body (h.contents p (by simp)).2, secs_plain k6, secs_top k4, secs_top k5]
  simp [secs, marks, group]

/-- **C149.** An EPS file is written for one page only. -/
theorem eps_one_page (version date : Str) (title : Option Str) (prolog : Str) (ps : List (Page K)) :
    (writeEPS g version date title prolog ps).isSome ↔ ps.length = 1 := by
  match ps with
  | [] => simp [writeEPS]
  | [p] => simp [writeEPS]
  | p :: q :: ps => simp [writeEPS]

/-- **C149.** EPS files of PyX can be included in PyX documents without disturbing their structure. -/
theorem own_eps (version date : Str) (title : Option Str) (prolog : Str) (p : Page K) (h : Fine g version date title prolog [p]) (s : Str)
    (hs : writeEPS g version date title prolog [p] = some s) : Ended s ∧ Body true (linesOf s) := by
  have hu := u_eps g version date title prolog p h s hs
  have top : ∀ k : Str, kind (line k) = .top → Body true [line k] := fun k hk => Body.plain _ _ _ (Or.inr ⟨rfl, hk⟩) (Body.nil _)
  have pl : ∀ k : Str, kind (line k) = .plain → Body true [line k] := fun k hk => Body.plain _ _ _ (Or.inl hk) (Body.nil _)
  refine ⟨hu.ended, ?_⟩
  rw [hu.lines]
  exact body_append (body_append (body_append (body_append (body_append (body_append (body_append (body_append (body_append (body_append
    (pl _ (kindLine' _ (by decide))) (body_inside (body_boxes g p.bbox))) (body_inside (body_info version date title)))
    (top _ (kindTop' _ (by decide) (by decide)))) (top _ (kindTop' _ (by decide) (by decide)))) (body_inside h.prolog.2))
    (top _ (kindTop' _ (by decide) (by decide)))) (body_inside (h.contents p (by simp)).2)) (pl _ (kindLine' _ (by decide))))
    (top _ (kindTop' _ (by decide) (by decide)))) (top _ (kindTop' _ (by decide) (by decide)))

theorem numeral_nat (n : ℕ) : Eps.Numeral (nat n) n := by
  have h := Eps.Numeral.plain (nat n) Nat.toDigits_ne_nil fun c hc => Nat.isDigit_of_mem_toDigits (by decide) (by decide) hc
  have e : (nat n).foldl (fun a c => 10 * a + (c.toNat - 48)) 0 = n := by
    have := Nat.ofDigitChars_ten_toDigits (n := n)
    rw [Nat.ofDigitChars_eq_foldl] at this
    exact this
  rwa [e] at h

theorem numeral_int : ∀ z : ℤ, Eps.Numeral (int z) z
  | .ofNat n => numeral_nat n
  | .negSucc n => by
    have h := Eps.Numeral.minus (nat (n + 1)) Nat.toDigits_ne_nil fun c hc => Nat.isDigit_of_mem_toDigits (by decide) (by decide) hc
    have e : (nat (n + 1)).foldl (fun a c => 10 * a + (c.toNat - 48)) 0 = n + 1 := by
      have := Nat.ofDigitChars_ten_toDigits (n := n + 1)
      rw [Nat.ofDigitChars_eq_foldl] at this
      exact this
    rw [e] at h
    exact h

/-- **C149.** The bounding box which `epsfile` reads from an EPS file of PyX is the least box of integers around the page, whatever the title, the
contents and the size of the parts in which the file is read. -/
theorem eps_roundtrip (t : ℕ) (ht : 0 < t) (version date : Str) (title : Option Str) (prolog : Str) (p : Page K) (q : Quad K) (hq : p.bbox = some q) (s : Str)
    (hs : writeEPS g version date title prolog [p] = some s) : Eps.readbbox t s = .ok (⌊q.llx⌋, ⌊q.lly⌋, ⌈q.urx⌉, ⌈q.ury⌉) := by
  unfold writeEPS at hs
  injection hs with hs
  rw [hq] at hs
  have hb : boxLine "%%BoundingBox: " q = Eps.bboxKey ++ Eps.spaced [(lit " ", int ⌊q.llx⌋), (lit " ", int ⌊q.lly⌋), (lit " ", int ⌈q.urx⌉),
      (lit " ", int ⌈q.ury⌉)] (lit "\n") := by
    have e1 : lit "%%BoundingBox: " = Eps.bboxKey ++ lit " " := rfl
    have e2 : lit "\n" = ['\n'] := rfl
    simp only [boxLine, line, Eps.spaced, e1, e2, List.append_assoc]
  have e : ∃ rest, s = line (lit "%!PS-Adobe-3.0 EPSF-3.0") ++ (boxLine "%%BoundingBox: " q ++ rest) := by
    refine ⟨hiresLine g q ++ (info version date title ++ (line (lit "%%EndComments") ++ (line (lit "%%BeginProlog") ++ (prolog ++ (line (lit "%%EndProlog") ++
      (p.content ++ (line (lit "showpage") ++ (line (lit "%%Trailer") ++ line (lit "%%EOF"))))))))), ?_⟩
    rw [← hs]
    simp only [List.append_assoc]
  obtain ⟨rest, e⟩ := e
  have h1 : linesOf s = line (lit "%!PS-Adobe-3.0 EPSF-3.0") :: ([] ++ boxLine "%%BoundingBox: " q :: linesOf rest) := by
    rw [e, linesOf_line _ _ (clean_of (by decide))]
    have := linesOf_line _ rest (clean_box (K := K) "%%BoundingBox: " (clean_of (by decide)) q)
    rw [List.nil_append]
    congr 1
  refine Eps.bbox_header_partial t ht s (lit " ", int ⌊q.llx⌋) (lit " ", int ⌊q.lly⌋) (lit " ", int ⌈q.urx⌉) (lit " ", int ⌈q.ury⌉) (lit "\n") _ _ _ _
    ?_ (by decide) (show ∀ c ∈ lit " ", Eps.ws c = true by decide) (show lit " " ≠ [] ∧ ∀ c ∈ lit " ", Eps.ws c = true by decide)
    (show lit " " ≠ [] ∧ ∀ c ∈ lit " ", Eps.ws c = true by decide) (show lit " " ≠ [] ∧ ∀ c ∈ lit " ", Eps.ws c = true by decide) (numeral_int _)
    (numeral_int _) (numeral_int _) (numeral_int _)
  rw [hb] at h1
  exact ⟨_, _, _, h1, ⟨lit "PS-Adobe-3.0 EPSF-3.0\n", rfl⟩, by simp⟩

end Files

/-! ## Resources -/

section Registry

variable {Key R : Type} [DecidableEq Key] (key : R → Key) (merge : R → R → R)

/-- One resource after the other merged into the first. -/
def mergeAll : List R → Option R
  | [] => none
  | r :: rs => some (rs.foldl merge r)

theorem mergeAll_concat (rs : List R) (r : R) : mergeAll merge (rs ++ [r]) = some (match mergeAll merge rs with
    | none => r
    | some x => merge x r) := by
  cases rs with
  | nil => rfl
  | cons a l => simp [mergeAll]

/-- **C149.** Each resource is output once, where it was first registered, and merged with all resources of the same type and identifier registered on
any page. -/
theorem registry_spec (hm : ∀ a b, key (merge a b) = key a) (rs : List R) :
    ((addAll key merge rs).map key).Nodup ∧ (∀ k, k ∈ (addAll key merge rs).map key ↔ k ∈ rs.map key) ∧
    (∀ x ∈ addAll key merge rs, mergeAll merge (rs.filter fun r => decide (key r = key x)) = some x) ∧
    ((addAll key merge rs).map key).Pairwise fun a b => (rs.map key).idxOf a < (rs.map key).idxOf b := by
  induction rs using List.reverseRecOn with
  | nil => simp [addAll]
  | append_singleton rs r ih =>
    obtain ⟨h1, h2, h3, h4⟩ := ih
    have hadd : addAll key merge (rs ++ [r]) = add key merge (addAll key merge rs) r := by simp [addAll]
    rw [hadd]
    unfold add
    have hidx : ∀ a ∈ rs.map key, ((rs ++ [r]).map key).idxOf a = (rs.map key).idxOf a := by
      intro a ha
      rw [List.map_append, List.idxOf_append_of_mem ha]
    by_cases hc : ((addAll key merge rs).any fun x => decide (key x = key r)) = true
    · rw [if_pos hc]
      have hmap : (List.map (fun x => if key x = key r then merge x r else x) (addAll key merge rs)).map key = (addAll key merge rs).map key := by
        rw [List.map_map]
        apply List.map_congr_left
        intro x _
        simp only [Function.comp]
        split_ifs
        · exact hm x r
        · rfl
      rw [hmap]
      have hk : key r ∈ rs.map key := by
        obtain ⟨x, hx, e⟩ := List.any_eq_true.1 hc
        rw [← h2, ← of_decide_eq_true e]
        exact List.mem_map_of_mem hx
      refine ⟨h1, fun k => ?_, ?_, ?_⟩
      · rw [h2, List.map_append, List.mem_append]
        refine ⟨Or.inl, fun h => h.elim id fun h => ?_⟩
        simp only [List.map_cons, List.map_nil, List.mem_singleton] at h
        rw [h]; exact hk
      · intro y hy
        obtain ⟨x, hx, rfl⟩ := List.mem_map.1 hy
        have h3x := h3 x hx
        by_cases hxr : key x = key r
        · rw [if_pos hxr, hm, List.filter_append]
          have : (List.filter (fun r => decide (key r = key x)) [r]) = [r] := by simp [hxr]
          rw [this, mergeAll_concat, h3x]
        · rw [if_neg hxr, List.filter_append]
          have : (List.filter (fun r => decide (key r = key x)) [r]) = [] := by simp [Ne.symm hxr]
          rw [this, List.append_nil, h3x]
      · refine h4.imp_of_mem ?_
        intro a b ha hb hab
        rw [hidx a ((h2 a).1 ha), hidx b ((h2 b).1 hb)]
        exact hab
    · rw [if_neg hc]
      have hk : key r ∉ (addAll key merge rs).map key := by
        intro h
        obtain ⟨x, hx, e⟩ := List.mem_map.1 h
        exact hc (List.any_eq_true.2 ⟨x, hx, decide_eq_true e⟩)
      have hk' : key r ∉ rs.map key := fun h => hk ((h2 _).2 h)
      rw [List.map_append]
      refine ⟨?_, fun k => ?_, ?_, ?_⟩
      · rw [List.nodup_append]
        refine ⟨h1, by simp, ?_⟩
        intro a ha b hb
        simp only [List.map_cons, List.map_nil, List.mem_singleton] at hb
        rintro rfl
        exact hk (hb ▸ ha)
      · rw [List.map_append, List.mem_append, List.mem_append, h2]
      · intro y hy
        rcases List.mem_append.1 hy with hy | hy
        · have hyr : key r ≠ key y := fun e => hk (e ▸ List.mem_map_of_mem hy)
          rw [List.filter_append]
          have : (List.filter (fun r => decide (key r = key y)) [r]) = [] := by simp [hyr]
          rw [this, List.append_nil, h3 y hy]
        · rw [List.mem_singleton] at hy
          subst hy
          rw [List.filter_append]
          have e1 : (List.filter (fun r => decide (key r = key y)) rs) = [] := by
            rw [List.filter_eq_nil_iff]
            intro x hx
            simp only [decide_eq_true_eq]
            exact fun e => hk' (e ▸ List.mem_map_of_mem hx)
          have e2 : (List.filter (fun r => decide (key r = key y)) [y]) = [y] := by simp
          rw [e1, e2]; rfl
      · rw [List.pairwise_append]
        refine ⟨h4.imp_of_mem ?_, by simp, ?_⟩
        · intro a b ha hb hab
          rw [hidx a ((h2 a).1 ha), hidx b ((h2 b).1 hb)]
          exact hab
        · intro a ha b hb
          simp only [List.map_cons, List.map_nil, List.mem_singleton] at hb
          subst hb
          rw [hidx a ((h2 a).1 ha), List.map_append, List.idxOf_append_of_notMem hk']
          have := List.idxOf_lt_length_of_mem ((h2 a).1 ha)
          omega

/-- **C149.** If everything a resource needs is registered before it, then everything it needs is output before it. -/
theorem needs_before (hm : ∀ a b, key (merge a b) = key a) (needs : Key → List Key) (rs : List R)
    (h : ∀ a r b, rs = a ++ r :: b → ∀ k ∈ needs (key r), k ∈ a.map key) :
    ∀ a r b, addAll key merge rs = a ++ r :: b → ∀ k ∈ needs (key r), k ∈ a.map key := by
  obtain ⟨h1, h2, _, h4⟩ := registry_spec key merge hm rs
  intro a r b e k hk
  have hr : key r ∈ rs.map key := (h2 _).1 (by rw [e]; simp)
  -- the first registration
  obtain ⟨n, hn⟩ : ∃ n, (rs.map key).idxOf (key r) = n := ⟨_, rfl⟩
  have hlt : n < rs.length := by rw [← hn, ← List.length_map (f := key)]; exact List.idxOf_lt_length_of_mem hr
  have hsplit : rs = rs.take n ++ rs[n] :: rs.drop (n + 1) := by simp
  have hkey : key rs[n] = key r := by
    have := List.getElem_idxOf (xs := rs.map key) (x := key r) (by rw [List.length_map, hn]; exact hlt)
    simp only [hn, List.getElem_map] at this
    exact this
  have hk2 := h _ _ _ hsplit k (by rw [hkey]; exact hk)
  have hkrs : k ∈ rs.map key := by rw [hsplit]; rw [List.map_append]; exact List.mem_append_left _ hk2
  have hidx : (rs.map key).idxOf k < n := by
    rw [hsplit, List.map_append, List.idxOf_append_of_mem hk2]
    have := List.idxOf_lt_length_of_mem hk2
    simp only [List.length_map, List.length_take] at this
    omega
  have hko := (h2 k).2 hkrs
  rw [e, List.map_append, List.map_cons] at hko h4
  rcases List.mem_append.1 hko with hko | hko
  · exact hko
  · exfalso
    rw [List.pairwise_append, List.pairwise_cons] at h4
    rcases List.mem_cons.1 hko with rfl | hko
    · omega
    · have := h4.2.1.1 k hko
      omega

end Registry

/-- Everything needed comes before. -/
def Ordered (file : Str → Bool) (rs : List (ResKey × List Str)) : Prop := ∀ a r b, rs = a ++ r :: b → ∀ k ∈ needs file r.1, k ∈ a.map (·.1)

theorem ordered_append {file : Str → Bool} {l m : List (ResKey × List Str)} (hl : Ordered file l) (hm : Ordered file m) : Ordered file (l ++ m) := by
  intro a r b e k hk
  rcases List.append_eq_append_iff.1 e with ⟨c, e1, e2⟩ | ⟨c, e1, e2⟩
  · have := hm c r b e2 k hk
    rw [e1, List.map_append]
    exact List.mem_append_right _ this
  · cases c with
    | nil =>
      simp only [List.append_nil, List.nil_append] at e1 e2
      have := hm [] r b e2.symm k hk
      simp at this
    | cons x c =>
      rw [List.cons_append] at e2
      injection e2 with e3 e4
      subst e3
      exact hl a r c e1 k hk

theorem text_ordered (file : Str → Bool) (t : Text) (ht : t.file = file t.font) : Ordered file (textResources t) := by
  have key : ∀ (l : List (ResKey × List Str)) (seen : List ResKey), (l.zipIdx.all fun x => (needs file x.1.1).all fun k =>
      decide (k ∈ seen ++ (l.take x.2).map (·.1))) = true → ∀ a r b, l = a ++ r :: b → ∀ k ∈ needs file r.1, k ∈ seen ++ a.map (·.1) := by
    intro l seen h a r b e k hk
    rw [List.all_eq_true] at h
    have hm : (r, a.length) ∈ l.zipIdx := by
      rw [List.mem_zipIdx_iff_getElem?, e]; simp
    have h2 := h _ hm
    rw [List.all_eq_true] at h2
    have h3 := of_decide_eq_true (h2 k hk)
    rw [e] at h3
    simpa using h3
  intro a r b e k hk
  have := key (textResources t) [] ?_ a r b e k hk
  · simpa using this
  · obtain ⟨font, f, enc, slant, glyphs⟩ := t
    simp only at ht
    subst ht
    cases hf : file font <;> cases enc <;> cases slant <;> simp [textResources, needs, hf, List.zipIdx]

/-- **C149.** In the prolog every font comes behind the procedure and the font it is made of, whatever texts are on the pages. -/
theorem fonts_before (file : Str → Bool) (ts : List Text) (h : ∀ t ∈ ts, t.file = file t.font) :
    Ordered file (addAll (·.1) mergeRes (ts.flatMap textResources)) := by
  refine needs_before (·.1) mergeRes (fun _ _ => rfl) (needs file) _ ?_
  change Ordered file _
  induction ts with
  | nil => intro a r b e; simp at e
  | cons t ts ih =>
    rw [List.flatMap_cons]
    exact ordered_append (text_ordered file t (h t (by simp))) (ih fun t ht => h t (by simp [ht]))

/-- **C149.** In particular, without the table of needs: the file of a font comes before the fonts made from it by other encodings and slants, and reencoded
fonts before their slanted ones. -/
theorem font_file_before (file : Str → Bool) (ts : List Text) (h : ∀ t ∈ ts, t.file = file t.font) (a b : List (ResKey × List Str)) (r : ResKey × List Str)
    (e : addAll (·.1) mergeRes (ts.flatMap textResources) = a ++ r :: b) (f : Str) :
    (∀ enc, r.1 = .reencode f enc → .definition (lit "ReEncodeFont") ∈ a.map (·.1) ∧ (file f = true → .t1file f ∈ a.map (·.1))) ∧
    (∀ s, r.1 = .slanted f none s → .definition (lit "ChangeFontMatrix") ∈ a.map (·.1) ∧ (file f = true → .t1file f ∈ a.map (·.1))) ∧
    (∀ enc s, r.1 = .slanted f (some enc) s → .definition (lit "ChangeFontMatrix") ∈ a.map (·.1) ∧ .reencode f enc ∈ a.map (·.1)) := by
  have key := fonts_before file ts h a r b e
  refine ⟨fun enc hr => ?_, fun s hr => ?_, fun enc s hr => ?_⟩
  · rw [hr] at key
    exact ⟨key _ (by simp [needs]), fun hf => key _ (by simp [needs, hf])⟩
  · rw [hr] at key
    exact ⟨key _ (by simp [needs]), fun hf => key _ (by simp [needs, hf])⟩
  · rw [hr] at key
    exact ⟨key _ (by simp [needs]), key _ (by simp [needs])⟩

theorem mergeRes_mem (rs : List (ResKey × List Str)) : ∀ (x : ResKey × List Str), x.2 ⊆ (rs.foldl mergeRes x).2 ∧ ∀ r ∈ rs, r.2 ⊆ (rs.foldl mergeRes x).2 := by
  induction rs with
  | nil => intro x; exact ⟨fun _ h => h, by simp⟩
  | cons a rs ih =>
    intro x
    rw [List.foldl_cons]
    obtain ⟨h1, h2⟩ := ih (mergeRes x a)
    refine ⟨fun g hg => h1 (List.mem_append_left _ hg), fun r hr => ?_⟩
    rcases List.mem_cons.1 hr with rfl | hr
    · exact fun g hg => h1 (List.mem_append_right _ hg)
    · exact h2 r hr

/-- **C149.** A font file in the prolog is included once and with all the glyphs of all texts on all pages. -/
theorem fonts_complete (ts : List Text) (t : Text) (ht : t ∈ ts) (hf : t.file = true) :
    ∃ x ∈ addAll (·.1) mergeRes (ts.flatMap textResources), x.1 = ResKey.t1file t.font ∧ t.glyphs ⊆ x.2 ∧
      ∀ y ∈ addAll (·.1) mergeRes (ts.flatMap textResources), y.1 = ResKey.t1file t.font → y = x := by
  obtain ⟨h1, h2, h3, _⟩ := registry_spec (·.1) mergeRes (fun _ _ => rfl) (ts.flatMap textResources)
  have hmem : ((ResKey.t1file t.font, t.glyphs) : ResKey × List Str) ∈ ts.flatMap textResources :=
    List.mem_flatMap.2 ⟨t, ht, by simp [textResources, hf]⟩
  obtain ⟨x, hx, e⟩ := List.mem_map.1 ((h2 (ResKey.t1file t.font)).2 (List.mem_map.2 ⟨_, hmem, rfl⟩))
  refine ⟨x, hx, e, ?_, ?_⟩
  · have h4 := h3 x hx
    have hin : ((ResKey.t1file t.font, t.glyphs) : ResKey × List Str) ∈ (ts.flatMap textResources).filter fun r => decide (r.1 = x.1) :=
      List.mem_filter.2 ⟨hmem, by simp [e]⟩
    cases hl : (ts.flatMap textResources).filter (fun r => decide (r.1 = x.1)) with
    | nil => rw [hl] at hin; simp at hin
    | cons a l =>
      rw [hl] at h4 hin
      simp only [mergeAll, Option.some.injEq] at h4
      rw [← h4]
      obtain ⟨m1, m2⟩ := mergeRes_mem l a
      rcases List.mem_cons.1 hin with rfl | hin
      · exact m1
      · exact m2 _ hin
  · intro y hy e2
    exact List.inj_on_of_nodup_map h1 hy hx (e2.trans e.symm)

/-! ## Examples and violations -/

section Witness

/-- Rational numbers are not needed to be shown. -/
def g0 : ℚ → Str := fun _ => lit "0.5"

def a4 : Paper ℚ := ⟨1, some (lit "A4"), 595276 / 1000, 841890 / 1000⟩

/-- A page with an included document, and a page without a name. -/
def twoPages : List (Page ℚ) :=
  [⟨some (lit "my page"), some a4, true, some ⟨1/2, 1, 3, 4⟩, embed [] (lit "x.eps") (lit "%!PS\n%%Page: 1 1\n%%EOF\n")⟩,
    ⟨none, some a4, false, none, lit "0 0 moveto\n"⟩]

theorem fine_two : Fine g0 (lit "0.16") (lit "today") (some (lit "title")) (definition (lit "x") (lit "{ 1 }")) twoPages where
  version := clean_of (by decide)
  date := clean_of (by decide)
  title := by intro t h; injection h with h; subst h; exact clean_of (by decide)
  number := fun _ => show Clean (lit "0.5") from clean_of (by decide)
  names := by
    intro p hp n hn
    simp only [twoPages, List.mem_cons, List.not_mem_nil, or_false] at hp
    rcases hp with rfl | rfl
    · injection hn with hn; subst hn; exact clean_of (by decide)
    · simp at hn
  papers := by
    intro p hp f hf
    simp only [twoPages, List.mem_cons, List.not_mem_nil, or_false] at hp
    rcases hp with rfl | rfl <;> (injection hf with hf; subst hf; exact clean_of (by decide))
  prolog := definition_body _ _ (clean_of (by decide)) (plain_body _ _ (by decide +kernel))
  contents := by
    intro p hp
    simp only [twoPages, List.mem_cons, List.not_mem_nil, or_false] at hp
    rcases hp with rfl | rfl
    · refine embed_body false _ _ _ ⟨Or.inl rfl, by rw [linesOf_nil]; exact Body.nil _⟩ (clean_of (by decide)) (Or.inr ⟨lit "%!PS\n%%Page: 1 1\n%%EOF", rfl⟩) ?_
      have e : linesOf (lit "%!PS\n%%Page: 1 1\n%%EOF\n") = [lit "%!PS\n", lit "%%Page: 1 1\n", lit "%%EOF\n"] := by decide +kernel
      rw [e]
      exact Body.plain _ _ _ (Or.inl (by decide)) (Body.plain _ _ _ (Or.inr ⟨rfl, by decide⟩) (Body.plain _ _ _ (Or.inr ⟨rfl, by decide⟩) (Body.nil _)))
    · exact ⟨Or.inr ⟨lit "0 0 moveto", rfl⟩, plain_body _ _ (by decide +kernel)⟩

example : (pagesOf (sections (writePS g0 (lit "0.16") (lit "today") (some (lit "title")) true (definition (lit "x") (lit "{ 1 }")) twoPages)).2).map
    (fun p => (p.label, p.number)) = [(lit "my page", 1), (lit "2", 2)] := by
  rw [ps_pages g0 _ _ _ true _ twoPages fine_two]
  decide +kernel

/-- **C149, violation.** An included EPS file without a line end behind its last line: the end of the included document is not found, and the reader of
the structure finds one page where two were written. -/
theorem embed_unended_fails : ∃ ps : List (Page ℚ), ps.length = 2 ∧
    (∀ p ∈ ps, p.content = embed [] (lit "x.eps") (lit "%!PS\n%%EOF")) ∧
    (pagesOf (sections (writePS g0 (lit "0.16") (lit "today") none false [] ps)).2).length = 1 := by
  refine ⟨[⟨none, none, false, none, embed [] (lit "x.eps") (lit "%!PS\n%%EOF")⟩, ⟨none, none, false, none, embed [] (lit "x.eps") (lit "%!PS\n%%EOF")⟩],
    rfl, by simp, by decide +kernel⟩

/-- **C149, violation.** A title is written as it is: with a line end, the rest of it is executed by the printer. -/
theorem title_fails : ∃ title : Str, lit "showpage\n" ∈ (sections (writePS g0 (lit "0.16") (lit "today") (some title) false [] [])).1 :=
  ⟨lit "a\nshowpage", by decide +kernel⟩

/-- **C149, violation.** The EPS file of an empty page has no bounding box, and `epsfile` refuses it. -/
theorem empty_eps_fails : ∃ s, writeEPS g0 (lit "0.16") (lit "today") none [] [⟨none, none, false, none, []⟩] = some s ∧
    Eps.readbbox 257 s = .error .missing := by
  refine ⟨_, rfl, ?_⟩
  have key : ∀ (t : ℕ) (ht : 0 < t) (cs : List Str) (l : Str) (rest : List Str), (∀ c ∈ cs, Eps.Comment c) → Eps.bboxKey.isPrefixOf l = false →
      Eps.endsHeader l = true → ∀ r : Eps.Rd, linesOf r.left = cs ++ l :: rest → Eps.headerLoop t r = .error .missing := by
    intro t ht cs
    induction cs with
    | nil =>
      intro l rest _ h1 h2 r hr
      obtain ⟨e0, e1, e2⟩ := Eps.linesOf_cons hr
      obtain ⟨s, r1, r2, r3⟩ := Eps.readline_ok t ht r e0
      rw [Eps.headerLoop]
      split
      · rename_i e he; rw [r1] at he; simp at he
      · rename_i s' he
        rw [r1] at he
        injection he with he
        subst he
        rw [r2, e1, h1, h2]; rfl
    | cons c cs ih =>
      intro l rest hc h1 h2 r hr
      obtain ⟨e0, e1, e2⟩ := Eps.linesOf_cons hr
      obtain ⟨s, r1, r2, r3⟩ := Eps.readline_ok t ht r e0
      rw [Eps.headerLoop]
      split
      · rename_i e he; rw [r1] at he; simp at he
      · rename_i s' he
        rw [r1] at he
        injection he with he
        subst he
        have hcc := hc c (by simp)
        rw [r2, e1, Eps.comment_key hcc, Eps.comment_goes_on hcc]
        exact ih l rest (fun c h => hc c (by simp [h])) h1 h2 _ (by rw [r3]; exact e2)
  set s := (line (lit "%!PS-Adobe-3.0 EPSF-3.0") ++ [] ++ info (lit "0.16") (lit "today") none ++ line (lit "%%EndComments") ++ line (lit "%%BeginProlog") ++ [] ++
      line (lit "%%EndProlog") ++ [] ++ line (lit "showpage") ++ line (lit "%%Trailer") ++ line (lit "%%EOF")) with hs
  have hl : linesOf s = line (lit "%!PS-Adobe-3.0 EPSF-3.0") :: ([line (lit "%%Creator: PyX 0.16"), line (lit "%%CreationDate: today")] ++
      line (lit "%%EndComments") :: [line (lit "%%BeginProlog"), line (lit "%%EndProlog"), line (lit "showpage"), line (lit "%%Trailer"), line (lit "%%EOF")]) := by
    decide +kernel
  obtain ⟨e0, e1, e2⟩ := Eps.linesOf_cons hl
  obtain ⟨r, r1, r2, r3⟩ := Eps.readline_ok 257 (by decide) ⟨[], s⟩ (by simpa [Eps.Rd.left] using e0)
  have hle : Eps.Rd.left ⟨[], s⟩ = s := rfl
  rw [hle] at r2 r3
  unfold Eps.readbbox
  rw [r1]
  simp only
  rw [r2, e1, if_pos (by decide)]
  refine key 257 (by decide) _ (line (lit "%%EndComments")) _ ?_ (by decide) (by decide) _ (by rw [r3]; exact e2)
  intro c hc
  simp only [List.mem_cons, List.not_mem_nil, or_false] at hc
  rcases hc with rfl | rfl
  · refine ⟨rfl, by decide, fun s e => ?_⟩
    exfalso
    have := congrArg (fun l => l.take 3) e
    have e3 : List.take 3 ("%%EndComments".toList ++ s) = ['%', '%', 'E'] := rfl
    rw [e3] at this
    exact absurd this (by decide)
  · refine ⟨rfl, by decide, fun s e => ?_⟩
    exfalso
    have := congrArg (fun l => l.take 3) e
    have e3 : List.take 3 ("%%EndComments".toList ++ s) = ['%', '%', 'E'] := rfl
    rw [e3] at this
    exact absurd this (by decide)

/-- Two texts of a font on different pages. -/
example : addAll (·.1) mergeRes ([⟨lit "F", true, some (lit "encoding0"), none, [lit "a"]⟩, ⟨lit "F", true, some (lit "encoding0"), some (lit "0.2"), [lit "b"]⟩].flatMap
    textResources) = [(.t1file (lit "F"), [lit "a", lit "b"]), (.definition (lit "ReEncodeFont"), []), (.reencode (lit "F") (lit "encoding0"), []),
    (.definition (lit "ChangeFontMatrix"), []), (.slanted (lit "F") (some (lit "encoding0")) (lit "0.2"), [])] := by decide +kernel

end Witness

/-! ## Options -/

/-- **C149.** The options with their present names are used as they are given … -/
theorem options_partial {K : Type} (a b c : Bool) (r : K) : ∃ o, init a b c r {} = .ok o ∧ o.stripfonts = a ∧ o.textaspath = b ∧ o.meshasbitmap = c :=
  ⟨_, rfl, rfl, rfl, rfl⟩

/-- **C149, violation.** … but every option with its old name, though announced as deprecated only, fails, … -/
theorem old_options_fail {K : Type} (a b c : Bool) (r : K) (old : Old K) : (∃ o, init a b c r old = .ok o) ↔
    old.strip_fonts = none ∧ old.text_as_path = none ∧ old.mesh_as_bitmap = none ∧ old.mesh_as_bitmap_resolution = none := by
  obtain ⟨s, t, m, n⟩ := old
  cases s <;> cases t <;> cases m <;> cases n <;> simp [init]

/-- **C149, violation.** … and meshes can never be written as bitmaps: the resolution is not stored. -/
theorem mesh_bitmap_fails {K : Type} (a b c : Bool) (r : K) (old : Old K) (o : Options K) (h : init a b c r old = .ok o) :
    meshResolution o = if c then .error .attributeError else .ok none := by
  obtain ⟨s, t, m, n⟩ := old
  cases s <;> cases t <;> cases m <;> cases n <;> simp only [init] at h
  all_goals first | (injection h with h; subst h; cases c <;> rfl) | exact absurd h (by simp)

end PyX.PSFile
