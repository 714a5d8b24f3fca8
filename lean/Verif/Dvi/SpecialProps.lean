import Verif.Dvi.Special

/-!
# C154: proofs
-/

set_option linter.unusedSectionVars false
set_option linter.unusedSimpArgs false

namespace PyX.Dvi.Special

noncomputable section

/-! ## Groups -/

/-- The groups `actpage` is in. -/
def pathOf : List Frame → List Attr
  | f :: g :: fs => f.attr :: pathOf (g :: fs)
  | _ => []

/-- Everything in all canvases. -/
def allLeaves : List Frame → List (Elem × List Attr)
  | [] => []
  | f :: fs => allLeaves fs ++ leavesL (pathOf (f :: fs)) f.items

theorem leavesL_append (st : List Attr) (l m : List Node) : leavesL st (l ++ m) = leavesL st l ++ leavesL st m := by
  induction l with
  | nil => rfl
  | cons n l ih => rw [List.cons_append, leavesL, leavesL, ih, List.append_assoc]

theorem pathOf_items (f : Frame) (l : List Node) (m : Str → Option Pt) (fs : List Frame) : pathOf ({ f with items := l, marks := m } :: fs) = pathOf (f :: fs) := by
  cases fs <;> rfl

theorem step_leaves {i : In} {fs gs : List Frame} (h : step i fs = some gs) (h0 : fs ≠ []) (l : List In) :
    gs ≠ [] ∧ allLeaves gs ++ enclosed (pathOf gs) l = allLeaves fs ++ enclosed (pathOf fs) (i :: l) ∧ depth (gs.length - 1) l = depth (fs.length - 1) (i :: l) := by
  cases i with
  | elem e =>
    match fs, h0 with
    | f :: fs, _ =>
      simp only [step, Option.some.injEq] at h
      subst h
      refine ⟨by simp, ?_, by simp [depth]⟩
      rw [allLeaves, allLeaves, pathOf_items f _ f.marks fs, leavesL_append, enclosed]
      simp [leavesL, leaves]
  | begin_ a =>
    simp only [step, Option.some.injEq] at h
    subst h
    match fs, h0 with
    | f :: fs, _ =>
      refine ⟨by simp, ?_, by simp [depth]⟩
      rw [allLeaves, enclosed]
      simp [leavesL, pathOf]
  | end_ =>
    match fs, h with
    | f :: g :: fs, h =>
      simp only [step, Option.some.injEq] at h
      subst h
      refine ⟨by simp, ?_, by simp [depth]⟩
      rw [allLeaves, pathOf_items g _ _ fs, leavesL_append, enclosed]
      rw [allLeaves, allLeaves]
      simp only [leavesL, leaves, pathOf, List.append_nil, List.append_assoc, List.tail_cons]
  | marker n p =>
    match fs, h0 with
    | f :: fs, _ =>
      simp only [step] at h
      cases hm : f.marks n with
      | some _ => simp [hm] at h
      | none =>
        simp only [hm, Option.some.injEq] at h
        subst h
        refine ⟨by simp, ?_, by simp [depth]⟩
        rw [allLeaves, allLeaves, pathOf_items f f.items _ fs, enclosed]

theorem steps_leaves {l : List In} {fs gs : List Frame} (h : steps l fs = some gs) (h0 : fs ≠ []) :
    gs ≠ [] ∧ allLeaves gs = allLeaves fs ++ enclosed (pathOf fs) l ∧ depth (fs.length - 1) l = some (gs.length - 1) := by
  induction l generalizing fs with
  | nil =>
    simp only [steps, Option.some.injEq] at h
    subst h
    exact ⟨h0, by simp [enclosed], rfl⟩
  | cons i l ih =>
    rw [steps] at h
    cases hs : step i fs with
    | none => simp [hs] at h
    | some fs' =>
      rw [hs, Option.bind_some] at h
      obtain ⟨h1, h2, h3⟩ := step_leaves hs h0 l
      obtain ⟨h4, h5, h6⟩ := ih h h1
      exact ⟨h4, by rw [h5, h2], by rw [← h3, h6]⟩

/-- **C154.** On a page where all groups are closed, the canvas contains the elements of the page in their order, each in the groups it is in on the page. -/
theorem special_groups {l : List In} {f : Frame} (h : run l = some f) (hd : depth 0 l = some 0) : leavesL [] f.items = enclosed [] l := by
  unfold run at h
  cases hs : steps l [root] with
  | none => simp [hs] at h
  | some gs =>
    rw [hs, Option.bind_some] at h
    obtain ⟨h1, h2, h3⟩ := steps_leaves hs (by simp)
    simp only [List.length_singleton, Nat.sub_self] at h3
    rw [hd, Option.some.injEq] at h3
    match gs, h1, h3, h with
    | [g], _, _, h =>
      simp only [List.head?_cons, Option.some.injEq] at h
      subst h
      simpa [allLeaves, leavesL, pathOf, root] using h2
    | g :: g' :: gs, _, h3, _ => simp at h3

theorem steps_append (l m : List In) (fs : List Frame) : steps (l ++ m) fs = (steps l fs).bind (steps m) := by
  induction l generalizing fs with
  | nil => rfl
  | cons i l ih =>
    rw [List.cons_append, steps, steps]
    cases step i fs with
    | none => rfl
    | some gs => simp [ih]

/-- Below the canvases which are open at first, nothing changes unless they are closed. -/
theorem steps_below {l : List In} {fs low gs : List Frame} (h : steps l (fs ++ low) = some gs) (h0 : fs ≠ []) {d : ℕ} (hd : depth (fs.length - 1) l = some d) :
    ∃ fs', gs = fs' ++ low ∧ steps l fs = some fs' ∧ fs'.length = d + 1 := by
  induction l generalizing fs with
  | nil =>
    simp only [steps, Option.some.injEq] at h
    simp only [depth, Option.some.injEq] at hd
    have := List.length_pos_iff.mpr h0
    exact ⟨fs, h.symm, rfl, by omega⟩
  | cons i l ih =>
    rw [steps] at h ⊢
    match fs, h0 with
    | f :: fs, _ =>
      cases i with
      | elem e => exact ih (fs := _ :: fs) h (by simp) hd
      | begin_ a => exact ih (fs := _ :: f :: fs) h (by simp) (by simpa [depth] using hd)
      | end_ =>
        match fs, hd, h with
        | g :: fs, hd, h =>
          exact ih (fs := _ :: fs) h (by simp) (by simpa [depth] using hd)
      | marker n p =>
        simp only [List.cons_append, step] at h ⊢
        cases hm : f.marks n with
        | some _ => simp [hm] at h
        | none =>
          simp only [hm, Option.bind_some] at h ⊢
          exact ih (fs := _ :: fs) h (by simp) hd

/-- **C154, violation.** If a group is not closed at the end of the page, everything before it is lost. -/
theorem unclosed_group_lost {l m : List In} {a : Attr} {f : Frame} (h : run (l ++ .begin_ a :: m) = some f) (hd : depth 0 m = some 0) :
    leavesL [] f.items = enclosed [] m := by
  unfold run at h
  rw [steps_append] at h
  cases hs : steps l [root] with
  | none => simp [hs] at h
  | some gs =>
    rw [hs, Option.bind_some, steps] at h
    change (steps m (⟨a, [], fun _ => none⟩ :: gs)).bind List.head? = some f at h
    cases hm : steps m (⟨a, [], fun _ => none⟩ :: gs) with
    | none => simp [hm] at h
    | some ks =>
      rw [hm, Option.bind_some] at h
      obtain ⟨fs', rfl, hm', hlen⟩ := steps_below (fs := [⟨a, [], fun _ => none⟩]) (low := gs) hm (by simp) hd
      match fs', hlen with
      | [g], _ =>
        simp only [List.cons_append, List.head?_cons, Option.some.injEq] at h
        subst h
        obtain ⟨-, h2, -⟩ := steps_leaves hm' (by simp)
        simpa [allLeaves, leavesL, pathOf] using h2

/-- A group which is closed but was not opened on the page is an error. -/
theorem end_without_begin (l m : List In) (hd : depth 0 l = some 0) : run (l ++ .end_ :: m) = none := by
  unfold run
  rw [steps_append]
  cases hs : steps l [root] with
  | none => rfl
  | some gs =>
    obtain ⟨h1, -, h3⟩ := steps_leaves hs (by simp)
    simp only [List.length_singleton, Nat.sub_self] at h3
    rw [hd, Option.some.injEq] at h3
    match gs, h1, h3 with
    | [g], _, _ => rfl
    | g :: g' :: gs, _, h3 => simp at h3

/-! ## Markers -/

/-- The place of a marker, seen from outside. -/
def markIn : List Frame → Str → Option Pt
  | [], _ => none
  | f :: fs, n => match f.marks n with
    | some v => some (outside (pathOf (f :: fs)) v)
    | none => markIn fs n

/-- The last one of the markers with a name. -/
def lastMark (l : List (Str × List Attr × Pt)) (n : Str) : Option Pt := (l.reverse.find? fun x => x.1 = n).map fun x => outside x.2.1 x.2.2

def orElse' (a b : Option Pt) : Option Pt := match a with
  | some x => some x
  | none => b

theorem lastMark_cons (x : Str × List Attr × Pt) (l : List (Str × List Attr × Pt)) (n : Str) :
    lastMark (x :: l) n = orElse' (lastMark l n) (if x.1 = n then some (outside x.2.1 x.2.2) else none) := by
  unfold lastMark
  rw [List.reverse_cons, List.find?_append]
  cases h : l.reverse.find? fun x => x.1 = n with
  | some y => simp [orElse']
  | none =>
    simp only [Option.none_or, Option.map_none, orElse', List.find?_singleton]
    split_ifs with h1 h2 h2 <;> simp_all

theorem step_marks {i : In} {fs gs : List Frame} (h : step i fs = some gs) (h0 : fs ≠ []) (l : List In) (n : Str) :
    gs ≠ [] ∧ orElse' (lastMark (markers (pathOf gs) l) n) (markIn gs n) = orElse' (lastMark (markers (pathOf fs) (i :: l)) n) (markIn fs n) := by
  cases i with
  | elem e =>
    match fs, h0 with
    | f :: fs, _ =>
      simp only [step, Option.some.injEq] at h
      subst h
      refine ⟨by simp, ?_⟩
      rw [markIn, markIn, pathOf_items f _ f.marks fs, markers]
  | begin_ a =>
    simp only [step, Option.some.injEq] at h
    subst h
    match fs, h0 with
    | f :: fs, _ =>
      refine ⟨by simp, ?_⟩
      rw [markers]; rfl
  | end_ =>
    match fs, h with
    | f :: g :: fs, h =>
      simp only [step, Option.some.injEq] at h
      subst h
      refine ⟨by simp, ?_⟩
      rw [pathOf_items g _ _ fs, markers]
      congr 1
      rw [markIn, pathOf_items g _ _ fs]
      conv_rhs => rw [markIn, markIn]
      simp only [merge]
      cases f.marks n with
      | some v => rfl
      | none => rfl
  | marker k p =>
    match fs, h0 with
    | f :: fs, _ =>
      simp only [step] at h
      cases hm : f.marks k with
      | some _ => simp [hm] at h
      | none =>
        simp only [hm, Option.some.injEq] at h
        subst h
        refine ⟨by simp, ?_⟩
        rw [pathOf_items f f.items _ fs, markers, lastMark_cons, markIn, pathOf_items f f.items _ fs]
        conv_rhs => rw [markIn]
        cases lastMark (markers (pathOf (f :: fs)) l) n with
        | some v => rfl
        | none =>
          simp only [orElse', setMark]
          by_cases hk : k = n
          · subst hk; simp [pathOf_items f f.items _ fs]
          · have : n ≠ k := fun h => hk h.symm
            simp [hk, this, pathOf_items f f.items _ fs]

theorem steps_marks {l : List In} {fs gs : List Frame} (h : steps l fs = some gs) (h0 : fs ≠ []) (n : Str) :
    markIn gs n = orElse' (lastMark (markers (pathOf fs) l) n) (markIn fs n) := by
  induction l generalizing fs with
  | nil =>
    simp only [steps, Option.some.injEq] at h
    subst h
    rfl
  | cons i l ih =>
    rw [steps] at h
    cases hs : step i fs with
    | none => simp [hs] at h
    | some fs' =>
      rw [hs, Option.bind_some] at h
      obtain ⟨h1, h2⟩ := step_marks hs h0 l n
      rw [ih h h1, h2]

/-- **C154.** A marker is found where it is seen from outside of all its groups; if there are several with its name, the last one counts. -/
theorem special_markers {l : List In} {f : Frame} (h : run l = some f) (hd : depth 0 l = some 0) (n : Str) : f.marks n = lastMark (markers [] l) n := by
  unfold run at h
  cases hs : steps l [root] with
  | none => simp [hs] at h
  | some gs =>
    rw [hs, Option.bind_some] at h
    obtain ⟨h1, h2, h3⟩ := steps_leaves hs (by simp)
    have hm := steps_marks hs (by simp) n
    simp only [List.length_singleton, Nat.sub_self] at h3
    rw [hd, Option.some.injEq] at h3
    match gs, h1, h3, h with
    | [g], _, _, h =>
      simp only [List.head?_cons, Option.some.injEq] at h
      subst h
      simp only [markIn, pathOf, root, outside, List.foldl_nil] at hm
      cases hg : g.marks n with
      | none =>
        rw [hg] at hm
        cases hl : lastMark (markers [] l) n with
        | none => rfl
        | some v => rw [hl] at hm; cases hm
      | some w =>
        rw [hg] at hm
        cases hl : lastMark (markers [] l) n with
        | none => rw [hl] at hm; cases hm
        | some v => rw [hl] at hm; exact hm
    | g :: g' :: gs, _, h3, _ => simp at h3

/-- **C154.** Markers with different names are all found. -/
theorem special_marker {l : List In} {f : Frame} (h : run l = some f) (hd : depth 0 l = some 0) {n : Str} {st : List Attr} {p : Pt}
    (hn : ((markers [] l).map Prod.fst).Nodup) (hm : (n, st, p) ∈ markers [] l) : f.marks n = some (outside st p) := by
  rw [special_markers h hd]
  generalize markers [] l = ms at hn hm
  induction ms with
  | nil => simp at hm
  | cons x ms ih =>
    rw [lastMark_cons]
    simp only [List.map_cons, List.nodup_cons] at hn
    rcases List.mem_cons.mp hm with h1 | h1
    · subst h1
      have : lastMark ms n = none := by
        unfold lastMark
        rw [Option.map_eq_none_iff, List.find?_eq_none]
        intro y hy hy'
        apply hn.1
        rw [List.mem_map]
        exact ⟨y, List.mem_reverse.mp hy, by simpa using hy'⟩
      rw [this]
      simp [orElse']
    · rw [ih hn.2 h1]; rfl

/-- **C154, violation.** The same name may be used twice, without an error, if one of the markers is in a group. -/
theorem marker_twice_accepted (n : Str) (p q : Pt) (a : Attr) : ∃ f, run [.marker n p, .begin_ a, .marker n q, .end_] = some f ∧ f.marks n = some (a.toTrafo.apply q) := by
  refine ⟨_, rfl, ?_⟩
  simp [merge, setMark]

/-- In one canvas it is an error. -/
theorem marker_twice (n : Str) (p q : Pt) (l : List In) : run (.marker n p :: .marker n q :: l) = none := by
  simp [run, steps, step, root, setMark]

/-! ## Pages are accepted -/

theorem steps_accepted {l : List In} {fs : List Frame} (h0 : fs ≠ []) {d : ℕ} (hd : depth (fs.length - 1) l = some d) (hn : ((markers (pathOf fs) l).map Prod.fst).Nodup)
    (hf : ∀ n ∈ (markers (pathOf fs) l).map Prod.fst, ∀ f ∈ fs, f.marks n = none) : ∃ gs, steps l fs = some gs ∧ gs ≠ [] := by
  induction l generalizing fs with
  | nil => exact ⟨fs, rfl, h0⟩
  | cons i l ih =>
    match fs, h0 with
    | f :: fs, _ =>
      rw [steps]
      cases i with
      | elem e =>
        refine ih (fs := { f with items := f.items ++ [.elem e] } :: fs) (by simp) hd ?_ ?_
        · rw [pathOf_items f _ f.marks fs]; exact hn
        · rw [pathOf_items f _ f.marks fs]
          intro n hn' g hg
          rcases List.mem_cons.mp hg with rfl | hg
          · exact hf n hn' f (by simp)
          · exact hf n hn' g (by simp [hg])
      | begin_ a =>
        refine ih (fs := ⟨a, [], fun _ => none⟩ :: f :: fs) (by simp) (by simpa [depth] using hd) hn ?_
        intro n hn' g hg
        rcases List.mem_cons.mp hg with rfl | hg
        · rfl
        · exact hf n hn' g hg
      | end_ =>
        match fs, hd, hf, hn with
        | g :: fs, hd, hf, hn =>
          refine ih (fs := { g with items := g.items ++ [.group f.attr f.items], marks := merge f.attr f.marks g.marks } :: fs) (by simp) (by simpa [depth] using hd) ?_ ?_
          · rw [pathOf_items g _ _ fs]; exact hn
          · rw [pathOf_items g _ _ fs]
            intro n hn' k hk
            rcases List.mem_cons.mp hk with rfl | hk
            · simp only [merge]
              rw [hf n hn' f (by simp)]
              exact hf n hn' g (by simp)
            · exact hf n hn' k (by simp [hk])
      | marker n p =>
        have hm : f.marks n = none := hf n (by simp [markers]) f (by simp)
        simp only [step, hm, Option.bind_some]
        rw [markers, List.map_cons, List.nodup_cons] at hn
        refine ih (fs := { f with marks := setMark f.marks n p } :: fs) (by simp) hd ?_ ?_
        · rw [pathOf_items f f.items _ fs]; exact hn.2
        · rw [pathOf_items f f.items _ fs]
          intro k hk g hg
          have hk' : k ∈ (markers (pathOf (f :: fs)) (.marker n p :: l)).map Prod.fst := by
            rw [markers, List.map_cons]; exact List.mem_cons_of_mem _ hk
          rcases List.mem_cons.mp hg with rfl | hg
          · simp only [setMark]
            rw [if_neg (by rintro rfl; exact hn.1 hk)]
            exact hf k hk' f (by simp)
          · exact hf k hk' g (by simp [hg])

/-- **C154.** A page is accepted if no group is closed which is not open, and if all markers have different names. -/
theorem special_accepted {l : List In} {d : ℕ} (hd : depth 0 l = some d) (hn : ((markers [] l).map Prod.fst).Nodup) : ∃ f, run l = some f := by
  obtain ⟨gs, h, h0⟩ := steps_accepted (l := l) (fs := [root]) (by simp) hd hn (by
    intro n _ f hf
    rw [List.mem_singleton] at hf
    subst hf; rfl)
  unfold run
  rw [h, Option.bind_some]
  match gs, h0 with
  | g :: gs, _ => exact ⟨g, rfl⟩

/-! ## Reading specials -/

open PyX.Afm (Tok join words words_join)

theorem words_space (ts : List Str) (h : ∀ t ∈ ts, Tok t) : words (join [' '] ts) = ts :=
  words_join [' '] (by intro c hc; rw [List.mem_singleton] at hc; subst hc; decide) (by simp) ts h

theorem tok_lit : ∀ c ∈ commands.map Prod.fst ++ kinds.map Prod.fst, Tok c := by
  intro c hc
  fin_cases hc <;> (refine ⟨by decide, ?_⟩; decide)

/-- **C154.** The colors of `\\textcolor`: gray, rgb, hsb and cmyk with their numbers, `RGB` with numbers up to 255, and named ones. -/
theorem special_colors (E : Env) (x y : ℝ) (a b c d : Str) (ha : Tok a) (hb : Tok b) (hc : Tok c) (hd : Tok d) (ra rb rc rd : ℝ)
    (ea : E.flt a = some ra) (eb : E.flt b = some rb) (ec : E.flt c = some rc) (ed : E.flt d = some rd) :
    parse E (join [' '] ["color_begin".toList, "gray".toList, a]) x y = (Color.mkGray ra).map (fun c => .begin_ (.color (.gray c))) ∧
    parse E (join [' '] ["color_begin".toList, "rgb".toList, a, b, c]) x y = (Color.mkRgb ra rb rc).map (fun c => .begin_ (.color (.rgb c))) ∧
    parse E (join [' '] ["color_begin".toList, "hsb".toList, a, b, c]) x y = (Color.mkHsb ra rb rc).map (fun c => .begin_ (.color (.hsb c))) ∧
    parse E (join [' '] ["color_begin".toList, "cmyk".toList, a, b, c, d]) x y = (Color.mkCmyk ra rb rc rd).map (fun c => .begin_ (.color (.cmyk c))) ∧
    parse E (join [' '] ["color_begin".toList, "texnamed".toList, a]) x y = (E.named .cmyk a).map (fun c => .begin_ (.color c)) ∧
    (∀ i j k, E.int a = some i → E.int b = some j → E.int c = some k →
      parse E (join [' '] ["color_begin".toList, "RGB".toList, a, b, c]) x y = (Color.mkRgb ((i : ℝ) / 255) ((j : ℝ) / 255) ((k : ℝ) / 255)).map (fun c => .begin_ (.color (.rgb c)))) := by
  have h0 : Tok "color_begin".toList := tok_lit _ (by simp [commands])
  have hgray : Tok "gray".toList := tok_lit _ (by simp [kinds])
  have hrgb : Tok "rgb".toList := tok_lit _ (by simp [kinds])
  have hhsb : Tok "hsb".toList := tok_lit _ (by simp [kinds])
  have hcmyk : Tok "cmyk".toList := tok_lit _ (by simp [kinds])
  have hRGB : Tok "RGB".toList := tok_lit _ (by simp [kinds])
  have htex : Tok "texnamed".toList := tok_lit _ (by simp [kinds])
  have g0 : get commands "color_begin".toList = some .color_begin := by decide +kernel
  have g1 : get kinds "gray".toList = some (.model .gray 1) := by decide +kernel
  have g2 : get kinds "rgb".toList = some (.model .rgb 3) := by decide +kernel
  have g3 : get kinds "hsb".toList = some (.model .hsb 3) := by decide +kernel
  have g4 : get kinds "cmyk".toList = some (.model .cmyk 4) := by decide +kernel
  have g5 : get kinds "RGB".toList = some .rgb255 := by decide +kernel
  have g6 : get kinds "texnamed".toList = some .texnamed := by decide +kernel
  refine ⟨?_, ?_, ?_, ?_, ?_, ?_⟩
  · unfold parse
    rw [words_space _ (by intro t ht; simp only [List.mem_cons, List.not_mem_nil, or_false] at ht; rcases ht with rfl | rfl | rfl <;> assumption)]
    simp only [g0, colour, g1, numbers, List.length_cons, List.length_nil, List.take, List.mapM_cons, List.mapM_nil, ea]
    simp [mkCol, Option.map_map, Function.comp_def]
  · unfold parse
    rw [words_space _ (by intro t ht; simp only [List.mem_cons, List.not_mem_nil, or_false] at ht; rcases ht with rfl | rfl | rfl | rfl | rfl <;> assumption)]
    simp only [g0, colour, g2, numbers, List.length_cons, List.length_nil, List.take, List.mapM_cons, List.mapM_nil, ea, eb, ec]
    simp [mkCol, Option.map_map, Function.comp_def]
  · unfold parse
    rw [words_space _ (by intro t ht; simp only [List.mem_cons, List.not_mem_nil, or_false] at ht; rcases ht with rfl | rfl | rfl | rfl | rfl <;> assumption)]
    simp only [g0, colour, g3, numbers, List.length_cons, List.length_nil, List.take, List.mapM_cons, List.mapM_nil, ea, eb, ec]
    simp [mkCol, Option.map_map, Function.comp_def]
  · unfold parse
    rw [words_space _ (by intro t ht; simp only [List.mem_cons, List.not_mem_nil, or_false] at ht; rcases ht with rfl | rfl | rfl | rfl | rfl | rfl <;> assumption)]
    simp only [g0, colour, g4, numbers, List.length_cons, List.length_nil, List.take, List.mapM_cons, List.mapM_nil, ea, eb, ec, ed]
    simp [mkCol, Option.map_map, Function.comp_def]
  · unfold parse
    rw [words_space _ (by intro t ht; simp only [List.mem_cons, List.not_mem_nil, or_false] at ht; rcases ht with rfl | rfl | rfl <;> assumption)]
    simp only [g0, colour, g6, List.head?_cons, Option.bind_some]
  · intro i j k ei ej ek
    unfold parse
    rw [words_space _ (by intro t ht; simp only [List.mem_cons, List.not_mem_nil, or_false] at ht; rcases ht with rfl | rfl | rfl | rfl | rfl <;> assumption)]
    simp only [g0, colour, g5, numbers, List.length_cons, List.length_nil, List.take, List.mapM_cons, List.mapM_nil, ei, ej, ek]
    simp [mkCol, Option.map_map, Function.comp_def]

/-- **C154.** `\\rotatebox` turns by the angle and `\\scalebox` scales by the factors, both with the current point kept in place; the ends of groups close one; markers are
at the current point. -/
theorem special_trafos (E : Env) (x y : ℝ) (a b : Str) (ha : Tok a) (hb : Tok b) :
    (∀ r, E.flt a = some r → ∃ t, parse E (join [' '] ["rotate_begin".toList, a]) x y = some (.begin_ (.trafo t)) ∧
      ∀ u v, t.apply (x + u, y + v) = (x + (Real.cos (Trafo.phi r) * u - Real.sin (Trafo.phi r) * v), y + (Real.sin (Trafo.phi r) * u + Real.cos (Trafo.phi r) * v))) ∧
    (∀ r s, E.flt a = some r → E.flt b = some s → ∃ t, parse E (join [' '] ["scale_begin".toList, a, b]) x y = some (.begin_ (.trafo t)) ∧
      ∀ u v, t.apply (x + u, y + v) = (x + r * u, y + s * v)) ∧
    (∀ c ∈ ["color_end".toList, "rotate_end".toList, "scale_end".toList], parse E c x y = some .end_) ∧
    (a.all markerChar = true → parse E (join [' '] ["marker".toList, a]) x y = some (.marker a (x, y))) := by
  have h1 : Tok "rotate_begin".toList := tok_lit _ (by simp [commands])
  have h2 : Tok "scale_begin".toList := tok_lit _ (by simp [commands])
  have h3 : Tok "marker".toList := tok_lit _ (by simp [commands])
  have g1 : get commands "rotate_begin".toList = some .rotate_begin := by decide +kernel
  have g2 : get commands "scale_begin".toList = some .scale_begin := by decide +kernel
  have g3 : get commands "marker".toList = some .marker := by decide +kernel
  refine ⟨fun r hr => ?_, fun r s hr hs => ?_, ?_, fun hm => ?_⟩
  · unfold parse
    rw [words_space _ (by intro t ht; simp only [List.mem_cons, List.not_mem_nil, or_false] at ht; rcases ht with rfl | rfl <;> assumption)]
    simp only [g1, List.head?_cons, Option.bind_some, hr, Trafo.rotate, Option.map_some]
    refine ⟨_, rfl, fun u v => ?_⟩
    ext <;> simp only [Trafo.apply] <;> ring
  · unfold parse
    rw [words_space _ (by intro t ht; simp only [List.mem_cons, List.not_mem_nil, or_false] at ht; rcases ht with rfl | rfl | rfl <;> assumption)]
    have hn : numbers E.flt 2 [a, b] = some [r, s] := by simp [numbers, hr, hs]
    simp only [g2, hn, Trafo.scale, Option.map_some, Option.getD_some]
    refine ⟨_, rfl, fun u v => ?_⟩
    ext <;> simp only [Trafo.apply] <;> ring
  · intro c hc
    have gc : get commands "color_end".toList = some .color_end ∧ get commands "rotate_end".toList = some .rotate_end ∧ get commands "scale_end".toList = some .scale_end := by decide +kernel
    simp only [List.mem_cons, List.not_mem_nil, or_false] at hc
    unfold parse
    rcases hc with rfl | rfl | rfl
    · rw [show words "color_end".toList = ["color_end".toList] by decide +kernel]; simp only [gc.1]
    · rw [show words "rotate_end".toList = ["rotate_end".toList] by decide +kernel]; simp only [gc.2.1]
    · rw [show words "scale_end".toList = ["scale_end".toList] by decide +kernel]; simp only [gc.2.2]
  · unfold parse
    rw [words_space _ (by intro t ht; simp only [List.mem_cons, List.not_mem_nil, or_false] at ht; rcases ht with rfl | rfl <;> assumption)]
    simp only [g3, hm, if_true]

/-- Other commands, and empty ones, are errors. -/
theorem special_unknown (E : Env) (x y : ℝ) (s : Str) (h : ∀ c, (words s).head? = some c → c ∉ commands.map Prod.fst) : parse E s x y = none := by
  unfold parse
  match hw : words s with
  | [] => rfl
  | c :: args =>
    have hc := h c (by rw [hw]; rfl)
    have : get commands c = none := by
      unfold get
      rw [Option.map_eq_none_iff, List.find?_eq_none]
      intro p hp hpc
      apply hc
      rw [List.mem_map]
      exact ⟨p, hp, by simpa using hpc⟩
    simp only [this]

end

end PyX.Dvi.Special
