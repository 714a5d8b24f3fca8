import Verif.Svg.Write

/-!
# C148: SVG files are well-formed and contain what was drawn
-/

set_option linter.unusedSectionVars false

namespace PyX.Svg.Write

/-! ## Escaping -/

theorem replace_flatMap (c : Char) (b : Str) (f : Char → Str) (s : Str) : replace c b (s.flatMap f) = s.flatMap fun x => replace c b (f x) := by
  unfold replace
  rw [List.flatMap_assoc]

def escF (x : Char) : Str := replace '<' "&lt;".toList (replace '>' "&gt;".toList (replace '&' "&amp;".toList [x]))
def attF (x : Char) : Str := replace '\t' "&#9;".toList (replace '\r' "&#13;".toList (replace '\n' "&#10;".toList (escF x)))
def quoF (x : Char) : Str := replace '"' "&quot;".toList (attF x)

theorem singles (s : Str) : s = s.flatMap fun x => [x] := by
  induction s with
  | nil => rfl
  | cons a s ih => rw [List.flatMap_cons, ← ih]; rfl

theorem escape_eq (s : Str) : escape s = s.flatMap escF := by
  unfold escape
  conv_lhs => rw [singles s]
  rw [replace_flatMap, replace_flatMap, replace_flatMap]
  rfl

/-- An encoding of characters which is read back. -/
def Good (f : Char → Str) : Prop := ∀ x r, decode (f x ++ r) = (decode r).map (x :: ·)

theorem decode_other (c : Char) (r : Str) (h : c ≠ '&') : decode (c :: r) = (decode r).map (c :: ·) := by
  rw [decode.eq_def]
  split
  all_goals first
    | (rename_i e; simp at e; done)
    | (rename_i e; simp only [List.cons.injEq] at e; exact absurd e.1 h)
    | skip
  rename_i e
  simp only [List.cons.injEq] at e
  obtain ⟨rfl, rfl⟩ := e
  rw [if_neg h]

theorem good_decode (f : Char → Str) (h : Good f) (s : Str) : decode (s.flatMap f) = some s := by
  induction s with
  | nil => rfl
  | cons x s ih => rw [List.flatMap_cons, h, ih]; rfl

theorem replace_single (c x : Char) (b : Str) : replace c b [x] = if x = c then b else [x] := by simp [replace]

theorem escF_other (x : Char) (h1 : x ≠ '&') (h2 : x ≠ '<') (h3 : x ≠ '>') : escF x = [x] := by
  unfold escF
  rw [replace_single, if_neg h1, replace_single, if_neg h3, replace_single, if_neg h2]

theorem escF_cases (x : Char) : (x = '&' ∧ escF x = "&amp;".toList) ∨ (x = '<' ∧ escF x = "&lt;".toList) ∨ (x = '>' ∧ escF x = "&gt;".toList) ∨
    (x ≠ '&' ∧ x ≠ '<' ∧ x ≠ '>' ∧ escF x = [x]) := by
  by_cases h1 : x = '&'
  · exact .inl ⟨h1, by subst h1; decide⟩
  by_cases h2 : x = '<'
  · exact .inr (.inl ⟨h2, by subst h2; decide⟩)
  by_cases h3 : x = '>'
  · exact .inr (.inr (.inl ⟨h3, by subst h3; decide⟩))
  exact .inr (.inr (.inr ⟨h1, h2, h3, escF_other x h1 h2 h3⟩))

theorem attF_cases (x : Char) : (x = '&' ∧ attF x = "&amp;".toList) ∨ (x = '<' ∧ attF x = "&lt;".toList) ∨ (x = '>' ∧ attF x = "&gt;".toList) ∨
    (x = '\n' ∧ attF x = "&#10;".toList) ∨ (x = '\r' ∧ attF x = "&#13;".toList) ∨ (x = '\t' ∧ attF x = "&#9;".toList) ∨
    (x ≠ '&' ∧ x ≠ '<' ∧ x ≠ '>' ∧ x ≠ '\n' ∧ x ≠ '\r' ∧ x ≠ '\t' ∧ attF x = [x]) := by
  rcases escF_cases x with ⟨rfl, _⟩ | ⟨rfl, _⟩ | ⟨rfl, _⟩ | ⟨h1, h2, h3, h4⟩
  · exact .inl ⟨rfl, by decide⟩
  · exact .inr (.inl ⟨rfl, by decide⟩)
  · exact .inr (.inr (.inl ⟨rfl, by decide⟩))
  by_cases e1 : x = '\n'
  · exact .inr (.inr (.inr (.inl ⟨e1, by subst e1; decide⟩)))
  by_cases e2 : x = '\r'
  · exact .inr (.inr (.inr (.inr (.inl ⟨e2, by subst e2; decide⟩))))
  by_cases e3 : x = '\t'
  · exact .inr (.inr (.inr (.inr (.inr (.inl ⟨e3, by subst e3; decide⟩)))))
  refine .inr (.inr (.inr (.inr (.inr (.inr ⟨h1, h2, h3, e1, e2, e3, ?_⟩)))))
  unfold attF
  rw [h4, replace_single, if_neg e1, replace_single, if_neg e2, replace_single, if_neg e3]

theorem quoF_cases (x : Char) : (x = '"' ∧ quoF x = "&quot;".toList) ∨ (x ≠ '"' ∧ quoF x = attF x) := by
  by_cases h : x = '"'
  · exact .inl ⟨h, by subst h; decide⟩
  refine .inr ⟨h, ?_⟩
  unfold quoF
  rcases attF_cases x with ⟨rfl, _⟩ | ⟨rfl, _⟩ | ⟨rfl, _⟩ | ⟨rfl, _⟩ | ⟨rfl, _⟩ | ⟨rfl, _⟩ | ⟨_, _, _, _, _, _, h4⟩
  · decide
  · decide
  · decide
  · decide
  · decide
  · decide
  · rw [h4, replace_single, if_neg h]

theorem good_esc : Good escF := by
  intro x r
  rcases escF_cases x with ⟨rfl, e⟩ | ⟨rfl, e⟩ | ⟨rfl, e⟩ | ⟨h1, _, _, e⟩ <;> rw [e]
  · rfl
  · rfl
  · rfl
  · exact decode_other x r h1

theorem good_att : Good attF := by
  intro x r
  rcases attF_cases x with ⟨rfl, e⟩ | ⟨rfl, e⟩ | ⟨rfl, e⟩ | ⟨rfl, e⟩ | ⟨rfl, e⟩ | ⟨rfl, e⟩ | ⟨h1, _, _, _, _, _, e⟩ <;> rw [e]
  · rfl
  · rfl
  · rfl
  · rfl
  · rfl
  · rfl
  · exact decode_other x r h1

theorem good_quo : Good quoF := by
  intro x r
  rcases quoF_cases x with ⟨rfl, e⟩ | ⟨_, e⟩ <;> rw [e]
  · rfl
  · exact good_att x r

theorem not_mem_flatMap (c : Char) (f : Char → Str) (h : ∀ x, c ∉ f x) (s : Str) : c ∉ s.flatMap f := by
  rw [List.mem_flatMap]
  rintro ⟨x, _, hx⟩
  exact h x hx

theorem not_mem_single (c x : Char) (h : x ≠ c) : c ∉ [x] := by
  rw [List.mem_singleton]
  exact fun e => h e.symm

theorem escF_clean (x : Char) : '<' ∉ escF x ∧ '>' ∉ escF x := by
  rcases escF_cases x with ⟨rfl, e⟩ | ⟨rfl, e⟩ | ⟨rfl, e⟩ | ⟨_, h2, h3, e⟩ <;> rw [e]
  · decide
  · decide
  · decide
  · exact ⟨not_mem_single _ _ h2, not_mem_single _ _ h3⟩

theorem attF_clean (x : Char) : '<' ∉ attF x ∧ '>' ∉ attF x ∧ '\n' ∉ attF x ∧ '\r' ∉ attF x ∧ '\t' ∉ attF x := by
  rcases attF_cases x with ⟨rfl, e⟩ | ⟨rfl, e⟩ | ⟨rfl, e⟩ | ⟨rfl, e⟩ | ⟨rfl, e⟩ | ⟨rfl, e⟩ | ⟨_, h2, h3, h4, h5, h6, e⟩ <;> rw [e]
  · decide
  · decide
  · decide
  · decide
  · decide
  · decide
  · exact ⟨not_mem_single _ _ h2, not_mem_single _ _ h3, not_mem_single _ _ h4, not_mem_single _ _ h5, not_mem_single _ _ h6⟩

theorem quoF_clean (x : Char) : '<' ∉ quoF x ∧ '>' ∉ quoF x ∧ '\n' ∉ quoF x ∧ '\r' ∉ quoF x ∧ '\t' ∉ quoF x ∧ '"' ∉ quoF x := by
  rcases quoF_cases x with ⟨rfl, e⟩ | ⟨h, e⟩ <;> rw [e]
  · decide
  · obtain ⟨h1, h2, h3, h4, h5⟩ := attF_clean x
    refine ⟨h1, h2, h3, h4, h5, ?_⟩
    rcases attF_cases x with ⟨rfl, e⟩ | ⟨rfl, e⟩ | ⟨rfl, e⟩ | ⟨rfl, e⟩ | ⟨rfl, e⟩ | ⟨rfl, e⟩ | ⟨_, _, _, _, _, _, e⟩ <;> rw [e]
    · decide
    · decide
    · decide
    · decide
    · decide
    · decide
    · exact not_mem_single _ _ h

/-- **C148 (characters).** Escaped characters are read back. -/
theorem escape_data (s : Str) : Data s (escape s) := by
  rw [escape_eq]
  exact ⟨not_mem_flatMap _ _ (fun x => (escF_clean x).1) s, not_mem_flatMap _ _ (fun x => (escF_clean x).2) s, good_decode _ good_esc s⟩

/-- **C148 (attributes).** Quoted values are read back. -/
theorem quoteattr_value (s : Str) : Value s (quoteattr s) := by
  have hd : replace '\t' "&#9;".toList (replace '\r' "&#13;".toList (replace '\n' "&#10;".toList (escape s))) = s.flatMap attF := by
    rw [escape_eq, replace_flatMap, replace_flatMap, replace_flatMap]
    rfl
  have hq : replace '"' "&quot;".toList (s.flatMap attF) = s.flatMap quoF := by
    rw [replace_flatMap]
    rfl
  have data : Data s (s.flatMap attF) := ⟨not_mem_flatMap _ _ (fun x => (attF_clean x).1) s, not_mem_flatMap _ _ (fun x => (attF_clean x).2.1) s, good_decode _ good_att s⟩
  have clean : '\n' ∉ s.flatMap attF ∧ '\r' ∉ s.flatMap attF ∧ '\t' ∉ s.flatMap attF :=
    ⟨not_mem_flatMap _ _ (fun x => (attF_clean x).2.2.1) s, not_mem_flatMap _ _ (fun x => (attF_clean x).2.2.2.1) s, not_mem_flatMap _ _ (fun x => (attF_clean x).2.2.2.2) s⟩
  unfold quoteattr
  simp only [hd]
  split_ifs with h1 h2
  · rw [hq]
    exact ⟨'"', _, .inl rfl, rfl, not_mem_flatMap _ _ (fun x => (quoF_clean x).2.2.2.2.2) s, not_mem_flatMap _ _ (fun x => (quoF_clean x).2.2.1) s, not_mem_flatMap _ _ (fun x => (quoF_clean x).2.2.2.1) s,
      not_mem_flatMap _ _ (fun x => (quoF_clean x).2.2.2.2.1) s, not_mem_flatMap _ _ (fun x => (quoF_clean x).1) s, not_mem_flatMap _ _ (fun x => (quoF_clean x).2.1) s, good_decode _ good_quo s⟩
  · exact ⟨'\'', _, .inr rfl, rfl, h2, clean.1, clean.2.1, clean.2.2, data⟩
  · exact ⟨'"', _, .inl rfl, rfl, h1, clean.1, clean.2.1, clean.2.2, data⟩

theorem attributes_attrText (as : Attrs) : Attributes as (as.flatMap attrText) := by
  induction as with
  | nil => exact .nil
  | cons a as ih =>
    rw [List.flatMap_cons]
    have := Attributes.cons (n := a.1) (quoteattr_value a.2) ih
    simpa [attrText] using this

theorem attributes_append {as bs : Attrs} {u v : Str} (h : Attributes as u) (h' : Attributes bs v) : Attributes (as ++ bs) (u ++ v) := by
  induction h with
  | nil => exact h'
  | @cons n s u as v hv _ ih =>
    have := Attributes.cons (n := n) hv ih
    simpa using this

theorem escape_white (w : Str) (h : White w) : escape w = w := by
  rw [escape_eq]
  conv_rhs => rw [singles w]
  rw [List.flatMap_def, List.flatMap_def]
  congr 1
  apply List.map_congr_left
  intro c hc
  rcases h c hc with rfl | rfl <;> decide

theorem data_white (w : Str) (h : White w) : Data w w := by
  have := escape_data w
  rwa [escape_white w h] at this

theorem escape_nil_iff (s : Str) : escape s = [] ↔ s = [] := by
  constructor
  · intro h
    have := (escape_data s).2.2
    rw [h] at this
    simpa [decode] using this.symm
  · rintro rfl; rfl

/-! ## The generator -/

theorem finish_fields (g : Gen) : (finish g).pending = false ∧ (finish g).undeclared = g.undeclared ∧ (finish g).xlinkEnabled = g.xlinkEnabled ∧ (finish g).xlinkUsed = g.xlinkUsed ∧
    (finish g).indent = g.indent ∧ (finish g).newline = g.newline ∧ (finish g).lastWasEnd = g.lastWasEnd := by
  unfold finish
  by_cases h : g.pending = true
  · rw [if_pos h]; exact ⟨rfl, rfl, rfl, rfl, rfl, rfl, rfl⟩
  · rw [if_neg h]; exact ⟨by simpa using h, rfl, rfl, rfl, rfl, rfl, rfl⟩

theorem finish_out_of_not (g : Gen) (h : g.pending = false) : (finish g).out = g.out := by
  unfold finish
  rw [if_neg (by simp [h])]

theorem finish_out_of (g : Gen) (h : g.pending = true) : (finish g).out = g.out ++ ['>'] := by
  unfold finish
  rw [if_pos h]

/-- The step from `g` to `g'` has written `t`, apart from closing a tag before it. -/
structure Wrote (g g' : Gen) (t : Str) : Prop where
  out : (finish g').out = (finish g).out ++ t
  pending : t ≠ [] → g'.pending = false
  same : t = [] → g'.pending = g.pending ∧ g'.out = g.out
  undeclared : g'.undeclared = g.undeclared
  enabled : g'.xlinkEnabled = g.xlinkEnabled
  indent : g'.indent = g.indent

theorem Wrote.refl (g : Gen) : Wrote g g [] := ⟨by simp, by simp, by simp, rfl, rfl, rfl⟩

theorem Wrote.trans {g g' g'' : Gen} {t t' : Str} (h : Wrote g g' t) (h' : Wrote g' g'' t') : Wrote g g'' (t ++ t') where
  out := by rw [h'.out, h.out, List.append_assoc]
  pending := by
    intro hne
    by_cases e : t' = []
    · rw [(h'.same e).1]
      exact h.pending (by rintro rfl; exact hne (by simp [e]))
    · exact h'.pending e
  same := by
    intro e
    obtain ⟨e1, e2⟩ := List.append_eq_nil_iff.mp e
    rw [(h'.same e2).1, (h'.same e2).2]
    exact h.same e1
  undeclared := h'.undeclared.trans h.undeclared
  enabled := h'.enabled.trans h.enabled
  indent := h'.indent.trans h.indent

theorem characters_wrote (g : Gen) (s : Str) : Wrote g (characters g s) (escape s) ∧ (characters g s).newline = g.newline ∧ (characters g s).lastWasEnd = g.lastWasEnd ∧ (characters g s).xlinkUsed = g.xlinkUsed := by
  unfold characters
  by_cases h : s = []
  · rw [if_pos h]
    subst h
    exact ⟨Wrote.refl g, rfl, rfl, rfl⟩
  · rw [if_neg h]
    obtain ⟨f1, f2, f3, f4, f5, f6, f7⟩ := finish_fields g
    refine ⟨⟨?_, fun _ => f1, fun e => absurd ((escape_nil_iff s).mp e) h, f2, f3, f5⟩, f6, f7, f4⟩
    exact finish_out_of_not _ f1

theorem pad_wrote (g : Gen) : ∃ w, White w ∧ Wrote g (pad g) w ∧ (pad g).newline = g.newline ∧ (pad g).lastWasEnd = g.lastWasEnd ∧ (pad g).xlinkUsed = g.xlinkUsed := by
  have hw : White (List.replicate g.indent ' ') := fun c hc => .inl (List.eq_of_mem_replicate hc)
  have hn : White ['\n'] := fun c hc => .inr (List.mem_singleton.mp hc)
  unfold pad
  by_cases h : g.newline = true
  · rw [if_pos h]
    obtain ⟨a1, a2⟩ := characters_wrote g (List.replicate g.indent ' ')
    rw [escape_white _ hw] at a1
    exact ⟨_, hw, a1, a2⟩
  · rw [if_neg h]
    obtain ⟨a1, a2, a3, a4⟩ := characters_wrote g ['\n']
    obtain ⟨b1, b2, b3, b4⟩ := characters_wrote (characters g ['\n']) (List.replicate g.indent ' ')
    rw [escape_white _ hn] at a1
    rw [escape_white _ hw] at b1
    refine ⟨_, ?_, a1.trans b1, b2.trans a2, b3.trans a3, b4.trans a4⟩
    intro c hc
    rcases List.mem_append.mp hc with hc | hc
    · exact hn c hc
    · exact hw c hc

/-- The declarations as text. -/
def declText (d : Attrs) : Str := d.flatMap fun d => ' ' :: (d.1 ++ "=\"".toList ++ d.2 ++ ['"'])

/-- A tag, its content and its end. -/
theorem element_wrote (g g2 : Gen) (n u t : Str) (g1 : Gen) (hout : g1.out = (finish g).out ++ '<' :: (n ++ u)) (hp : g1.pending = true)
    (h : Wrote g1 g2 t) : (endNS g2 n).pending = false ∧
    (endNS g2 n).out = (finish g).out ++ (if t = [] then '<' :: (n ++ u ++ "/>".toList) else '<' :: (n ++ u ++ ['>'] ++ t ++ "</".toList ++ n ++ ['>'])) := by
  unfold endNS
  by_cases e : t = []
  · obtain ⟨h1, h2⟩ := h.same e
    rw [h1, hp, if_pos rfl, if_pos e]
    refine ⟨rfl, ?_⟩
    simp only [h2, hout]
    simp
  · have h1 := h.pending e
    have h2 := h.out
    rw [finish_out_of_not _ h1, finish_out_of _ hp, hout] at h2
    rw [h1, if_neg (by simp), if_neg e]
    refine ⟨rfl, ?_⟩
    simp only [h2]
    simp

theorem content_nil_iff {x : Xml} (hx : Inline x) {t : Str} (h : Content x t) : t = [] ↔ x = .nil := by
  cases h with
  | nil => simp
  | chars hd _ =>
    simp only [reduceCtorEq, iff_false]
    intro e
    have e1 := (List.append_eq_nil_iff.mp e).1
    subst e1
    have := hd.2.2
    simp only [decode, Option.some.injEq] at this
    exact hx.1 this.symm
  | empty => simp
  | elem => simp

/-- Whether names with a prefix are among the attributes. -/
def uses (ns : List Str) : Bool := ns.any fun n => decide (':' ∈ n)

theorem convertAttrs_ok (en : Bool) (as : Attrs) (b : Bool) (h : convertAttrs en as = .ok b) : b = uses (as.map (·.1)) := by
  induction as generalizing b with
  | nil => simp only [convertAttrs, Except.ok.injEq] at h; subst h; rfl
  | cons a as ih =>
    rw [convertAttrs] at h
    cases hc : convertName en a.1 with
    | error e => rw [hc] at h; cases h
    | ok c =>
      rw [hc] at h
      dsimp only at h
      cases hd : convertAttrs en as with
      | error e => rw [hd] at h; cases h
      | ok d =>
        rw [hd] at h
        simp only [Except.ok.injEq] at h
        subst h
        rw [ih d hd]
        simp only [uses, List.map_cons, List.any_cons]
        congr 1
        unfold convertName at hc
        split_ifs at hc with h1 h2 h3
        · simp only [Except.ok.injEq] at hc; subst hc; simp [h1]
        · simp only [Except.ok.injEq] at hc; subst hc; simpa using h1

theorem start_tspan (g : Gen) (hu : g.undeclared = []) (a : Attrs) (g1 : Gen) (h : start g tspan a = .ok g1) :
    g1.out = (finish g).out ++ '<' :: (tspan ++ a.flatMap attrText) ∧ g1.pending = true ∧ g1.undeclared = [] ∧ g1.xlinkEnabled = g.xlinkEnabled ∧ g1.indent = g.indent ∧ g1.newline = g.newline ∧
    g1.lastWasEnd = g.lastWasEnd ∧ g1.xlinkUsed = (g.xlinkUsed || uses (a.map (·.1))) := by
  unfold start at h
  simp only [ne_eq, not_true_eq_false, if_false] at h
  cases hc : convertAttrs g.xlinkEnabled a with
  | error e => rw [hc] at h; cases h
  | ok b =>
    rw [hc] at h
    simp only [Except.ok.injEq] at h
    subst h
    have hb := convertAttrs_ok _ _ _ hc
    subst hb
    unfold startNS finish
    by_cases hp : g.pending = true
    · simp [hp, hu]
    · simp [hp, hu]

theorem start_block (g : Gen) (n : Str) (hn : n ≠ tspan) (a : Attrs) (g1 : Gen) (h : start g n a = .ok g1) :
    ∃ w, White w ∧ Wrote g (pad g) w ∧ g1.out = (finish (pad g)).out ++ '<' :: (n ++ (declText g.undeclared ++ a.flatMap attrText)) ∧ g1.pending = true ∧ g1.undeclared = [] ∧ g1.xlinkEnabled = g.xlinkEnabled ∧
      g1.indent = g.indent + 1 ∧ g1.newline = false ∧ g1.lastWasEnd = false ∧ g1.xlinkUsed = (g.xlinkUsed || uses (a.map (·.1))) := by
  obtain ⟨w, h1, h2, h3, h4, h5⟩ := pad_wrote g
  unfold start at h
  simp only [ne_eq, hn, not_false_eq_true, if_true] at h
  cases hc : convertAttrs g.xlinkEnabled a with
  | error e => rw [hc] at h; cases h
  | ok b =>
    rw [hc] at h
    simp only [Except.ok.injEq] at h
    subst h
    have hb := convertAttrs_ok _ _ _ hc
    subst hb
    refine ⟨w, h1, h2, ?_⟩
    have hd := h2.undeclared
    have he := h2.enabled
    have hi := h2.indent
    generalize pad g = p at *
    unfold startNS finish
    by_cases hp : p.pending = true
    · simp [hp, hd, he, hi, h5, declText]
    · simp [hp, hd, he, hi, h5, declText]

/-- The content of a text is written as it is. -/
theorem emit_inline (x : Xml) (hx : Inline x) (g g' : Gen) (hu : g.undeclared = []) (h : emit g x = .ok g') :
    ∃ t, Content x t ∧ Wrote g g' t ∧ g'.newline = g.newline ∧ g'.lastWasEnd = g.lastWasEnd ∧ g'.xlinkUsed = (g.xlinkUsed || uses (names x)) := by
  induction x generalizing g g' with
  | nil =>
    simp only [emit, Except.ok.injEq] at h
    subst h
    exact ⟨[], .nil, Wrote.refl g, rfl, rfl, by simp [names, uses]⟩
  | chars s r ih =>
    rw [emit] at h
    obtain ⟨a1, a2, a3, a4⟩ := characters_wrote g s
    obtain ⟨t, b1, b2, b3, b4, b5⟩ := ih hx.2 (characters g s) g' (a1.undeclared.trans hu) h
    exact ⟨_, .chars (escape_data s) b1, a1.trans b2, b3.trans a2, b4.trans a3, by rw [b5, a4]; rfl⟩
  | elem n a c r ihc ihr =>
    obtain ⟨rfl, hc, hr⟩ := hx
    rw [emit] at h
    cases hs : start g tspan a with
    | error e => rw [hs] at h; cases h
    | ok g1 =>
      rw [hs] at h
      dsimp only at h
      cases he : emit g1 c with
      | error e => rw [he] at h; cases h
      | ok g2 =>
        rw [he] at h
        dsimp only at h
        obtain ⟨s1, s2, s3, s4, s5, s6, s7, s8⟩ := start_tspan g hu a g1 hs
        obtain ⟨t, c1, c2, c3, c4, c5⟩ := ihc hc g1 g2 s3 he
        obtain ⟨e1, e2⟩ := element_wrote g g2 tspan (a.flatMap attrText) t g1 s1 s2 c2
        have hstop : stop g2 tspan = endNS g2 tspan := by simp [stop]
        rw [hstop] at h
        have hfields : (endNS g2 tspan).undeclared = g2.undeclared ∧ (endNS g2 tspan).xlinkEnabled = g2.xlinkEnabled ∧ (endNS g2 tspan).indent = g2.indent ∧
            (endNS g2 tspan).newline = g2.newline ∧ (endNS g2 tspan).lastWasEnd = g2.lastWasEnd ∧ (endNS g2 tspan).xlinkUsed = g2.xlinkUsed := by
          unfold endNS
          split <;> simp
        obtain ⟨f1, f2, f3, f4, f5, f6⟩ := hfields
        generalize endNS g2 tspan = g3 at *
        have hwrote : Wrote g g3 (if t = [] then '<' :: (tspan ++ a.flatMap attrText ++ "/>".toList) else '<' :: (tspan ++ a.flatMap attrText ++ ['>'] ++ t ++ "</".toList ++ tspan ++ ['>'])) := by
          refine ⟨by rw [finish_out_of_not _ e1, e2], fun _ => e1, ?_, ?_, ?_, ?_⟩
          · intro e
            split_ifs at e
          · rw [f1, c2.undeclared, s3, hu]
          · rw [f2, c2.enabled, s4]
          · rw [f3, c2.indent, s5]
        obtain ⟨v, d1, d2, d3, d4, d5⟩ := ihr hr g3 g' (hwrote.undeclared.trans hu) h
        refine ⟨_, ?_, hwrote.trans d2, by rw [d3, f4, c3, s6], by rw [d4, f5, c4, s7], ?_⟩
        · by_cases ht : t = []
          · rw [if_pos ht]
            have := (content_nil_iff hc c1).mp ht
            subst this
            have := Content.empty (n := tspan) (attributes_attrText a) d1
            simpa using this
          · rw [if_neg ht]
            have := Content.elem (n := tspan) (attributes_attrText a) c1 d1
            simpa using this
        · rw [d5, f6, c5, s8]
          simp [names, uses, Bool.or_assoc]

theorem content_append {x y : Xml} {t u : Str} (h : Content x t) (h' : Content y u) : Content (append x y) (t ++ u) := by
  induction h with
  | nil => exact h'
  | chars hd _ ih => rw [append, List.append_assoc]; exact .chars hd ih
  | @empty n a r u v ha _ ih =>
    rw [append]
    have := Content.empty (n := n) ha ih
    simpa using this
  | @elem n a c r u w v ha hc _ _ ih =>
    rw [append]
    have := Content.elem (n := n) ha hc ih
    simpa using this

theorem meaning_append_white (y : Xml) (w : Str) (hw : White w) : meaning (append y (.chars w .nil)) = meaning y := by
  induction y with
  | nil => simp only [append, meaning, if_pos hw]
  | chars s r ih => simp only [append, meaning, ih]
  | elem n a c r _ ih => simp only [append, meaning, ih]

theorem Wrote.outdent {g g' : Gen} {t : Str} (h : Wrote g g' t) : Wrote { g with indent := g.indent - 1 } { g' with indent := g'.indent - 1 } t where
  out := by
    have := h.out
    unfold finish at this ⊢
    dsimp only
    split_ifs at this ⊢ with h1 h2 h3 <;> exact this
  pending := h.pending
  same := h.same
  undeclared := h.undeclared
  enabled := h.enabled
  indent := by dsimp only; rw [h.indent]

theorem pad_nonempty (g : Gen) (h : g.newline = false) : ∀ w, Wrote g (pad g) w → w ≠ [] := by
  rintro w hw rfl
  have h2 := hw.out
  have h3 := (hw.same rfl)
  unfold pad at h2
  rw [if_neg (by simp [h])] at h2
  obtain ⟨a1, _⟩ := characters_wrote g ['\n']
  obtain ⟨b1, _⟩ := characters_wrote (characters g ['\n']) (List.replicate g.indent ' ')
  rw [(a1.trans b1).out] at h2
  have := List.append_cancel_left h2
  simp only [List.append_eq_nil_iff, escape_nil_iff] at this
  simp at this

/-- From the end of the content of an element to its end. -/
theorem stop_block (n : Str) (hn : n ≠ tspan) (g2 : Gen) :
    stop g2 n = { endNS (if g2.lastWasEnd then pad { g2 with indent := g2.indent - 1 } else { g2 with indent := g2.indent - 1 }) n with lastWasEnd := true, newline := false } := by
  simp [stop, hn]

theorem endNS_fields (g : Gen) (n : Str) : (endNS g n).undeclared = g.undeclared ∧ (endNS g n).xlinkEnabled = g.xlinkEnabled ∧ (endNS g n).indent = g.indent ∧ (endNS g n).xlinkUsed = g.xlinkUsed := by
  unfold endNS
  split <;> simp

/-- An element which is not a `tspan`, given its content. -/
theorem block_element (n : Str) (hn : n ≠ tspan) (a : Attrs) (g g1 g2 : Gen) (hd : Attributes g.undeclared (declText g.undeclared)) (h1 : start g n a = .ok g1) (c' : Xml) (t : Str) (hc : Content c' t)
    (hw : Wrote g1 g2 t) (ht : t = [] ↔ c' = .nil) (hlast : g2.lastWasEnd = true → n ≠ textName ∧ t ≠ []) :
    ∃ w c'' u, (White w ∧ Wrote g (pad g) w) ∧ (n = textName → c'' = c') ∧ meaning c'' = meaning c' ∧ Content (.elem n (g.undeclared ++ a) c'' .nil) u ∧
      (stop g2 n).out = (finish g).out ++ (w ++ u) ∧ (stop g2 n).pending = false ∧ (stop g2 n).undeclared = [] ∧ (stop g2 n).xlinkEnabled = g.xlinkEnabled ∧ (stop g2 n).indent = g.indent ∧
      (stop g2 n).newline = false ∧ (stop g2 n).lastWasEnd = true ∧ (stop g2 n).xlinkUsed = g2.xlinkUsed := by
  obtain ⟨w, s0, s1, s2, s3, s4, s5, s6, s7, s8, s9⟩ := start_block g n hn a g1 h1
  have hatt := attributes_append hd (attributes_attrText a)
  -- the state before the end tag
  have key : ∃ g3 c'' t'', (if g2.lastWasEnd then pad { g2 with indent := g2.indent - 1 } else { g2 with indent := g2.indent - 1 }) = g3 ∧ Content c'' t'' ∧ Wrote { g1 with indent := g1.indent - 1 } g3 t'' ∧
      (t'' = [] ↔ c'' = .nil) ∧ (n = textName → c'' = c') ∧ meaning c'' = meaning c' ∧ g3.xlinkUsed = g2.xlinkUsed := by
    by_cases hl : g2.lastWasEnd = true
    · rw [if_pos hl]
      obtain ⟨h3, h4⟩ := hlast hl
      obtain ⟨w2, p1, p2, p3, p4, p5⟩ := pad_wrote { g2 with indent := g2.indent - 1 }
      refine ⟨_, append c' (.chars w2 .nil), t ++ w2, rfl, ?_, hw.outdent.trans p2, ?_, fun e => absurd e h3, meaning_append_white c' w2 p1, p5⟩
      · have := content_append hc (Content.chars (data_white w2 p1) Content.nil)
        simpa using this
      · constructor
        · intro e; exact absurd (List.append_eq_nil_iff.mp e).1 h4
        · intro e; cases c' <;> simp [append] at e
    · rw [if_neg hl]
      exact ⟨_, c', t, rfl, hc, hw.outdent, ht, fun _ => rfl, rfl, rfl⟩
  obtain ⟨g3, c'', t'', e3, k1, k2, k3, k4, k5, k6⟩ := key
  rw [stop_block n hn, e3]
  obtain ⟨q1, q2⟩ := element_wrote (pad g) g3 n (declText g.undeclared ++ a.flatMap attrText) t'' { g1 with indent := g1.indent - 1 } s2 s3 k2
  obtain ⟨f1, f2, f3, f4⟩ := endNS_fields g3 n
  refine ⟨w, c'',
    if t'' = [] then '<' :: (n ++ (declText g.undeclared ++ a.flatMap attrText) ++ "/>".toList) else '<' :: (n ++ (declText g.undeclared ++ a.flatMap attrText) ++ ['>'] ++ t'' ++ "</".toList ++ n ++ ['>']),
    ⟨s0, s1⟩, k4, k5, ?_, ?_, q1, ?_, ?_, ?_, rfl, rfl, ?_⟩
  · by_cases e : t'' = []
    · rw [if_pos e]
      have := k3.mp e
      subst this
      have := Content.empty (n := n) hatt Content.nil
      simpa using this
    · rw [if_neg e]
      have := Content.elem (n := n) hatt k1 Content.nil
      simpa using this
  · dsimp only
    rw [q2, s1.out, List.append_assoc]
  · exact f1.trans (k2.undeclared.trans s4)
  · exact f2.trans (k2.enabled.trans s5)
  · refine f3.trans (k2.indent.trans ?_)
    show g1.indent - 1 = g.indent
    omega
  · exact f4.trans k6

/-- Elements are written as they are, up to white space between them. -/
theorem emit_block (x : Xml) (hx : Block x) (g g' : Gen) (hu : g.undeclared = []) (h : emit g x = .ok g') :
    ∃ y t, meaning y = x ∧ Content y t ∧ Wrote g g' t ∧ (x = .nil → g' = g ∧ y = .nil) ∧ (t = [] ↔ y = .nil) ∧ (x ≠ .nil → g'.newline = false ∧ g'.lastWasEnd = true ∧ t ≠ []) ∧
      g'.xlinkUsed = (g.xlinkUsed || uses (names x)) := by
  induction x generalizing g g' with
  | nil =>
    simp only [emit, Except.ok.injEq] at h
    subst h
    exact ⟨.nil, [], rfl, .nil, Wrote.refl g, fun _ => ⟨rfl, rfl⟩, by simp, by simp, by simp [names, uses]⟩
  | chars s r ih => exact hx.elim
  | elem n a c r ihc ihr =>
    obtain ⟨hn, hc, hr⟩ := hx
    rw [emit] at h
    cases hs : start g n a with
    | error e => rw [hs] at h; cases h
    | ok g1 =>
      rw [hs] at h
      dsimp only at h
      cases he : emit g1 c with
      | error e => rw [he] at h; cases h
      | ok g2 =>
        rw [he] at h
        dsimp only at h
        obtain ⟨_, _, _, _, _, s4, _, _, _, s8, s9⟩ := start_block g n hn a g1 hs
        have hd : Attributes g.undeclared (declText g.undeclared) := by rw [hu]; exact .nil
        have key : ∃ c' t, Content c' t ∧ Wrote g1 g2 t ∧ (t = [] ↔ c' = .nil) ∧ (g2.lastWasEnd = true → n ≠ textName ∧ t ≠ []) ∧ (if n = textName then c' = c else meaning c' = c) ∧
            g2.xlinkUsed = (g1.xlinkUsed || uses (names c)) := by
          by_cases ht : n = textName
          · rw [if_pos ht] at hc
            obtain ⟨t, b1, b2, _, b4, b5⟩ := emit_inline c hc g1 g2 s4 he
            exact ⟨c, t, b1, b2, content_nil_iff hc b1, (fun e => by rw [b4, s8] at e; cases e), by rw [if_pos ht], b5⟩
          · rw [if_neg ht] at hc
            obtain ⟨y, t, b1, b2, b3, b4, b5, b6, b7⟩ := ihc hc g1 g2 s4 he
            refine ⟨y, t, b2, b3, b5, ?_, by rw [if_neg ht]; exact b1, b7⟩
            intro e
            refine ⟨ht, ?_⟩
            by_cases hnil : c = .nil
            · rw [(b4 hnil).1, s8] at e; cases e
            · exact (b6 hnil).2.2
        obtain ⟨c', t, k1, k2, k3, k4, k5, k6⟩ := key
        obtain ⟨w, c'', u, ⟨m1, _⟩, m2, m3, m4, m5, m6, m7, m8, m9, m10, m11, m12⟩ := block_element n hn a g g1 g2 hd hs c' t k1 k2 k3 k4
        rw [hu, List.nil_append] at m4
        have hune : w ++ u ≠ [] := by
          intro e
          have := (List.append_eq_nil_iff.mp e).2
          subst this
          cases m4
        have hstep : Wrote g (stop g2 n) (w ++ u) := ⟨by rw [finish_out_of_not _ m6, m5], fun _ => m6, fun e => absurd e hune, m7.trans hu.symm, m8, m9⟩
        obtain ⟨y, v, d1, d2, d3, d4, d5, d6, d7⟩ := ihr hr (stop g2 n) g' m7 h
        have hcont : Content (.chars w (append (.elem n a c'' .nil) y)) ((w ++ u) ++ v) := by
          have := Content.chars (data_white w m1) (content_append m4 d2)
          rwa [← List.append_assoc] at this
        refine ⟨_, _, ?_, hcont, hstep.trans d3, by simp, ?_, ?_, ?_⟩
        · simp only [meaning, if_pos m1, append]
          by_cases ht : n = textName
          · rw [if_pos ht]
            rw [if_pos ht] at k5
            rw [m2 ht, k5, d1]
          · rw [if_neg ht]
            rw [if_neg ht] at k5
            rw [m3, k5, d1]
        · constructor
          · intro e; exact absurd (List.append_eq_nil_iff.mp e).1 hune
          · intro e; cases e
        · intro _
          refine ⟨?_, ?_, fun e => hune (List.append_eq_nil_iff.mp e).1⟩
          · by_cases hnil : r = .nil
            · rw [(d4 hnil).1]; exact m10
            · exact (d6 hnil).1
          · by_cases hnil : r = .nil
            · rw [(d4 hnil).1]; exact m11
            · exact (d6 hnil).2.1
        · rw [d7, m12, k6, s9]
          simp [names, uses, Bool.or_assoc]

/-! ## Files -/

theorem declarations_text (b : Bool) : Attributes (declarations b) (declText (declarations b)) := by
  have value : ∀ u : Str, '"' ∉ u → '\n' ∉ u → '\r' ∉ u → '\t' ∉ u → '<' ∉ u → '>' ∉ u → decode u = some u → Value u ('"' :: (u ++ ['"'])) :=
    fun u h1 h2 h3 h4 h5 h6 h7 => ⟨'"', u, .inl rfl, rfl, h1, h2, h3, h4, h5, h6, h7⟩
  have v1 : Value svgUri ('"' :: (svgUri ++ ['"'])) := value _ (by decide) (by decide) (by decide) (by decide) (by decide) (by decide) (by decide)
  have v2 : Value xlinkUri ('"' :: (xlinkUri ++ ['"'])) := value _ (by decide) (by decide) (by decide) (by decide) (by decide) (by decide) (by decide)
  cases b with
  | false => exact Attributes.cons v1 .nil
  | true => exact Attributes.cons v1 (Attributes.cons v2 .nil)

theorem newlineAndTell_wrote (g : Gen) : Wrote g (newlineAndTell g) ['\n'] ∧ (newlineAndTell g).newline = true ∧ (newlineAndTell g).lastWasEnd = g.lastWasEnd ∧ (newlineAndTell g).xlinkUsed = g.xlinkUsed := by
  obtain ⟨a1, a2, a3, a4⟩ := characters_wrote g ['\n']
  rw [escape_white _ (fun c hc => .inr (List.mem_singleton.mp hc))] at a1
  refine ⟨⟨?_, a1.pending, a1.same, a1.undeclared, a1.enabled, a1.indent⟩, rfl, a3, a4⟩
  have h := a1.pending (by simp)
  have h2 := a1.out
  rw [finish_out_of_not _ h] at h2
  have h' : (newlineAndTell g).pending = false := h
  rw [finish_out_of_not _ h']
  exact h2

theorem svg_ne : "svg".toList ≠ tspan ∧ "svg".toList ≠ textName := by decide

/-- The page is the content of the page up to white space. -/
theorem writePage_spec (page : Xml) (hp : Block page) (data : Str) (used : Bool) (h : writePage page = .ok (data, used)) :
    ∃ y, meaning y = page ∧ Content y data ∧ used = uses (names page) := by
  unfold writePage at h
  cases hs : start (startDocument true) "svg".toList [] with
  | error e => rw [hs] at h; cases h
  | ok g1 =>
    rw [hs] at h
    dsimp only at h
    obtain ⟨_, _, _, _, _, s4, _, _, _, _, s9⟩ := start_block _ _ svg_ne.1 _ g1 hs
    obtain ⟨n1, n2, n3, n4⟩ := newlineAndTell_wrote g1
    cases he : emit (newlineAndTell g1) page with
    | error e => rw [he] at h; cases h
    | ok g3 =>
      rw [he] at h
      simp only [Except.ok.injEq, Prod.mk.injEq] at h
      obtain ⟨h1, h2⟩ := h
      obtain ⟨y, t, b1, b2, b3, _, _, _, b7⟩ := emit_block page hp _ g3 (n1.undeclared.trans s4) he
      obtain ⟨m1, m2, m3, m4⟩ := newlineAndTell_wrote g3
      have hpend : (newlineAndTell g1).pending = false := n1.pending (by simp)
      have hpend' : (newlineAndTell g3).pending = false := m1.pending (by simp)
      have hout := (b3.trans m1).out
      rw [finish_out_of_not _ hpend, finish_out_of_not _ hpend'] at hout
      refine ⟨append y (.chars ['\n'] .nil), ?_, ?_, ?_⟩
      · rw [meaning_append_white y _ (fun c hc => .inr (List.mem_singleton.mp hc)), b1]
      · rw [← h1, hout, List.drop_left]
        have := content_append b2 (Content.chars (data_white ['\n'] (fun c hc => .inr (List.mem_singleton.mp hc))) Content.nil)
        simpa using this
      · rw [← h2, m4, b7, n4, s9]
        simp [startDocument, uses]

theorem meaning_append (x y : Xml) : meaning (append x y) = append (meaning x) (meaning y) := by
  induction x with
  | nil => rfl
  | chars s r ih =>
    simp only [append, meaning]
    split_ifs
    · exact ih
    · rw [ih]; rfl
  | elem n a c r _ ih =>
    simp only [append, meaning]
    split_ifs
    · rw [ih]; rfl
    · rw [ih]; rfl

/-- Specification: the elements of a file. -/
def elements (defs page : Xml) : Xml := if defs = .nil then page else .elem "defs".toList [] defs page

/-- **C148 (files).** A file which is written is well-formed: the header, one element `svg` with its attributes and the declarations of the namespaces, and a line end.  The content of this element
is the resources and the page, up to white space which has no meaning; texts are as they were given. -/
theorem file_wellformed (attrs : Attrs) (defs page : Xml) (hdefs : Block defs) (hpage : Block page) (file : Str) (h : write attrs defs page = .ok file) :
    ∃ y t, file = header ++ t ++ ['\n'] ∧ Content (.elem "svg".toList (declarations (uses (names page)) ++ attrs) y .nil) t ∧ meaning y = elements defs page := by
  unfold write at h
  cases hw : writePage page with
  | error e => rw [hw] at h; cases h
  | ok r =>
    obtain ⟨data, used⟩ := r
    rw [hw] at h
    dsimp only at h
    obtain ⟨y, p1, p2, rfl⟩ := writePage_spec page hpage data used hw
    generalize hb : uses (names page) = b at *
    cases hs : start (startDocument b) "svg".toList attrs with
    | error e => rw [hs] at h; cases h
    | ok x1 =>
      rw [hs] at h
      dsimp only at h
      obtain ⟨_, _, _, _, _, s4, _, _, _, s8, _⟩ := start_block _ _ svg_ne.1 _ x1 hs
      cases hdef : writeDefs x1 defs with
      | error e => rw [hdef] at h; cases h
      | ok x2 =>
        rw [hdef] at h
        dsimp only at h
        obtain ⟨z, t, d1, d2, d3⟩ : ∃ z t, meaning z = (if defs = .nil then .nil else .elem "defs".toList [] defs .nil) ∧ Content z t ∧ Wrote x1 x2 t := by
          unfold writeDefs at hdef
          by_cases hn : defs = .nil
          · rw [if_pos hn] at hdef
            simp only [Except.ok.injEq] at hdef
            subst hdef
            exact ⟨.nil, [], by rw [if_pos hn]; rfl, .nil, Wrote.refl _⟩
          · rw [if_neg hn] at hdef
            have hblock : Block (.elem "defs".toList [] defs .nil) := by
              refine ⟨by decide, ?_, trivial⟩
              rw [if_neg (by decide)]
              exact hdefs
            obtain ⟨z, t, e1, e2, e3, _⟩ := emit_block _ hblock x1 x2 s4 hdef
            exact ⟨z, t, by rw [if_neg hn]; exact e1, e2, e3⟩
        obtain ⟨n1, n2, n3, n4⟩ := newlineAndTell_wrote x2
        have hnl : White ['\n'] := fun c hc => .inr (List.mem_singleton.mp hc)
        have hpend : (newlineAndTell x2).pending = false := n1.pending (by simp)
        have hraw : Wrote (newlineAndTell x2) { newlineAndTell x2 with out := (newlineAndTell x2).out ++ data } data := by
          refine ⟨?_, fun _ => hpend, ?_, rfl, rfl, rfl⟩
          · rw [finish_out_of_not _ hpend]
            exact finish_out_of_not _ hpend
          · rintro rfl
            exact ⟨rfl, by simp⟩
        have hall := (d3.trans n1).trans hraw
        have hcont : Content (append (append z (.chars ['\n'] .nil)) y) (t ++ ['\n'] ++ data) := by
          have := content_append d2 (Content.chars (data_white ['\n'] hnl) Content.nil)
          rw [List.append_nil] at this
          exact content_append this p2
        have hne : t ++ ['\n'] ++ data ≠ [] := by simp
        obtain ⟨w, c'', u, ⟨m1, m0⟩, m2, m3, m4, m5, m6, _⟩ := block_element "svg".toList svg_ne.1 attrs (startDocument b) x1 _ (declarations_text b) hs _ _ hcont hall
          (by
            constructor
            · intro e; exact absurd e hne
            · intro e; cases z <;> simp [append] at e)
          (fun _ => ⟨svg_ne.2, hne⟩)
        have hw0 : w = [] := by
          have e := m0.out
          have e2 : pad (startDocument b) = startDocument b := rfl
          rw [e2] at e
          simpa using e
        subst hw0
        refine ⟨c'', u, ?_, m4, ?_⟩
        · simp only [Except.ok.injEq] at h
          subst h
          obtain ⟨c1, _⟩ := characters_wrote (stop { newlineAndTell x2 with out := (newlineAndTell x2).out ++ data } "svg".toList) ['\n']
          rw [escape_white _ hnl] at c1
          have c2 := c1.out
          rw [finish_out_of_not _ (c1.pending (by simp)), finish_out_of_not _ m6, m5] at c2
          rw [c2]
          rfl
        · rw [m3, meaning_append, meaning_append_white _ _ hnl, d1, p1]
          unfold elements
          by_cases hn : defs = .nil
          · rw [if_pos hn, if_pos hn]; rfl
          · rw [if_neg hn, if_neg hn]; rfl

/-! ## Which files can be written -/

/-- Names without prefix, and names with the prefix of links. -/
def Plain (n : Str) : Prop := ':' ∉ n
def Link (n : Str) : Prop := ∃ m, n = "xlink:".toList ++ m ∧ ':' ∉ m

theorem convertName_iff (en : Bool) (n : Str) : (∃ b, convertName en n = .ok b) ↔ Plain n ∨ (Link n ∧ en = true) := by
  unfold convertName Plain Link
  by_cases h1 : ':' ∉ n
  · rw [if_pos h1]; simp [h1]
  · rw [if_neg h1]
    have hlink : ("xlink:".toList <+: n ∧ ':' ∉ n.drop 6) ↔ ∃ m, n = "xlink:".toList ++ m ∧ ':' ∉ m := by
      constructor
      · rintro ⟨⟨m, rfl⟩, h⟩
        exact ⟨m, rfl, by simpa using h⟩
      · rintro ⟨m, rfl, h⟩
        exact ⟨⟨m, rfl⟩, by simpa using h⟩
    by_cases h2 : ∃ m, n = "xlink:".toList ++ m ∧ ':' ∉ m
    · rw [if_neg (not_not.mpr (hlink.mpr h2))]
      cases en
      · simp only [Bool.false_eq_true, if_false, and_false, or_false, reduceCtorEq, exists_false, false_iff]
        exact h1
      · exact ⟨fun _ => .inr ⟨h2, rfl⟩, fun _ => ⟨true, rfl⟩⟩
    · rw [if_pos (fun e => h2 (hlink.mp e))]
      constructor
      · rintro ⟨b, h⟩; cases h
      · rintro (h | h)
        · exact absurd h h1
        · exact absurd h.1 h2

theorem convertAttrs_iff (en : Bool) (as : Attrs) : (∃ b, convertAttrs en as = .ok b) ↔ ∀ n ∈ as.map (·.1), Plain n ∨ (Link n ∧ en = true) := by
  induction as with
  | nil => exact ⟨fun _ n hn => by simp at hn, fun _ => ⟨false, rfl⟩⟩
  | cons a as ih =>
    rw [List.map_cons, List.forall_mem_cons, ← ih, ← convertName_iff en a.1]
    constructor
    · rintro ⟨b, h⟩
      rw [convertAttrs] at h
      cases hc : convertName en a.1 with
      | error e => rw [hc] at h; cases h
      | ok c =>
        rw [hc] at h
        dsimp only at h
        cases hd : convertAttrs en as with
        | error e => rw [hd] at h; cases h
        | ok d => exact ⟨⟨c, rfl⟩, d, rfl⟩
    · rintro ⟨⟨c, hc⟩, d, hd⟩
      exact ⟨c || d, by rw [convertAttrs, hc]; dsimp only; rw [hd]⟩

theorem characters_enabled (g : Gen) (s : Str) : (characters g s).xlinkEnabled = g.xlinkEnabled := (characters_wrote g s).1.enabled

theorem start_enabled (g : Gen) (n : Str) (a : Attrs) : (∃ g1, start g n a = .ok g1) ↔ ∃ b, convertAttrs g.xlinkEnabled a = .ok b := by
  unfold start
  cases convertAttrs g.xlinkEnabled a with
  | error e => simp
  | ok b => simp

theorem start_keeps (g g1 : Gen) (n : Str) (a : Attrs) (h : start g n a = .ok g1) : g1.xlinkEnabled = g.xlinkEnabled := by
  obtain ⟨w, _, h2, _⟩ := pad_wrote g
  unfold start at h
  cases hc : convertAttrs g.xlinkEnabled a with
  | error e => rw [hc] at h; cases h
  | ok b =>
    rw [hc] at h
    simp only [Except.ok.injEq] at h
    subst h
    by_cases hn : n = tspan
    · simp [hn, startNS, (finish_fields _).2.2.1]
    · simp [hn, startNS, (finish_fields _).2.2.1, h2.enabled]

theorem stop_keeps (g : Gen) (n : Str) : (stop g n).xlinkEnabled = g.xlinkEnabled := by
  unfold stop
  by_cases hn : n = tspan
  · simp [hn, (endNS_fields _ _).2.1]
  · obtain ⟨w, _, h2, _⟩ := pad_wrote { g with indent := g.indent - 1 }
    by_cases hl : g.lastWasEnd = true
    · simp only [ne_eq, hn, not_false_eq_true, if_true, true_and, if_pos hl, (endNS_fields _ _).2.1, h2.enabled]
    · simp [hn, hl, (endNS_fields _ _).2.1]

theorem emit_iff (x : Xml) (g : Gen) : ((∃ g', emit g x = .ok g') ↔ ∀ n ∈ names x, Plain n ∨ (Link n ∧ g.xlinkEnabled = true)) ∧ ∀ g', emit g x = .ok g' → g'.xlinkEnabled = g.xlinkEnabled := by
  induction x generalizing g with
  | nil =>
    refine ⟨⟨fun _ n hn => by simp [names] at hn, fun _ => ⟨g, rfl⟩⟩, ?_⟩
    intro g' h
    simp only [emit, Except.ok.injEq] at h
    rw [h]
  | chars s r ih =>
    obtain ⟨h1, h2⟩ := ih (characters g s)
    rw [characters_enabled] at h1
    refine ⟨h1, fun g' h => ?_⟩
    rw [h2 g' h, characters_enabled]
  | elem n a c r ihc ihr =>
    simp only [names, List.mem_append, or_imp, forall_and]
    rw [← convertAttrs_iff, ← start_enabled g n a]
    cases hs : start g n a with
    | error e =>
      constructor
      · simp [emit, hs]
      · intro g' h; rw [emit, hs] at h; cases h
    | ok g1 =>
      obtain ⟨c1, c2⟩ := ihc g1
      rw [start_keeps g g1 n a hs] at c1 c2
      rw [← c1]
      cases he : emit g1 c with
      | error e =>
        constructor
        · simp [emit, hs, he]
        · intro g' h; rw [emit, hs] at h; dsimp only at h; rw [he] at h; cases h
      | ok g2 =>
        obtain ⟨r1, r2⟩ := ihr (stop g2 n)
        rw [stop_keeps, c2 g2 he] at r1 r2
        rw [← r1]
        have hem : emit g (.elem n a c r) = emit (stop g2 n) r := by
          rw [emit, hs]; dsimp only; rw [he]
        rw [hem]
        exact ⟨by simp, r2⟩

theorem uses_iff (ns : List Str) : uses ns = true ↔ ∃ n ∈ ns, ¬ Plain n := by simp [uses, Plain]

/-- **C148 (which files are written).** A file is written unless an attribute has an unknown prefix, or a resource has a link and the page has none. -/
theorem write_iff (attrs : Attrs) (ha : ∀ a ∈ attrs, Plain a.1) (defs page : Xml) :
    (∃ file, write attrs defs page = .ok file) ↔ (∀ n ∈ names page, Plain n ∨ Link n) ∧ ∀ n ∈ names defs, Plain n ∨ (Link n ∧ uses (names page) = true) := by
  obtain ⟨g1, hg1⟩ : ∃ g1, start (startDocument true) "svg".toList [] = .ok g1 := (start_enabled _ _ _).mpr ⟨false, rfl⟩
  obtain ⟨s0, s1⟩ := start_block _ _ svg_ne.1 _ g1 hg1
  have e1 : (newlineAndTell g1).xlinkEnabled = true := by
    rw [(newlineAndTell_wrote g1).1.enabled, start_keeps _ _ _ _ hg1]; rfl
  obtain ⟨p1, p2⟩ := emit_iff page (newlineAndTell g1)
  rw [e1] at p1
  simp only [and_true] at p1
  cases hp : emit (newlineAndTell g1) page with
  | error e =>
    have hnot : ¬ ∀ n ∈ names page, Plain n ∨ Link n := by
      rw [← p1, hp]; simp
    constructor
    · rintro ⟨file, h⟩
      unfold write writePage at h
      rw [hg1] at h
      dsimp only at h
      rw [hp] at h
      cases h
    · rintro ⟨h, _⟩; exact absurd h hnot
  | ok g3 =>
    have hok : ∀ n ∈ names page, Plain n ∨ Link n := p1.mp ⟨g3, hp⟩
    have hused : (newlineAndTell g3).xlinkUsed = uses (names page) := by
      rw [(newlineAndTell_wrote g3).2.2.2]
      have gen : ∀ (x : Xml) (g g' : Gen), emit g x = .ok g' → g'.xlinkUsed = (g.xlinkUsed || uses (names x)) := by
        intro x
        induction x with
        | nil => intro g g' h; simp only [emit, Except.ok.injEq] at h; subst h; simp [names, uses]
        | chars s r ih => intro g g' h; rw [emit] at h; rw [ih _ g' h, (characters_wrote g s).2.2.2]; rfl
        | elem n a c r ihc ihr =>
          intro g g' h
          rw [emit] at h
          cases hs : start g n a with
          | error e => rw [hs] at h; cases h
          | ok g1 =>
            rw [hs] at h
            dsimp only at h
            cases he : emit g1 c with
            | error e => rw [he] at h; cases h
            | ok g2 =>
              rw [he] at h
              dsimp only at h
              have u1 : g1.xlinkUsed = (g.xlinkUsed || uses (a.map (·.1))) := by
                obtain ⟨w, _, _, _, _, h5⟩ := pad_wrote g
                unfold start at hs
                cases hc : convertAttrs g.xlinkEnabled a with
                | error e => rw [hc] at hs; cases hs
                | ok b =>
                  rw [hc] at hs
                  have hb := convertAttrs_ok _ _ _ hc
                  subst hb
                  simp only [Except.ok.injEq] at hs
                  subst hs
                  by_cases hn : n = tspan
                  · simp [hn, startNS, (finish_fields _).2.2.2.1]
                  · simp [hn, startNS, (finish_fields _).2.2.2.1, h5]
              have u2 : (stop g2 n).xlinkUsed = g2.xlinkUsed := by
                unfold stop
                by_cases hn : n = tspan
                · simp [hn, (endNS_fields _ _).2.2.2]
                · obtain ⟨w, _, _, _, _, h5⟩ := pad_wrote { g2 with indent := g2.indent - 1 }
                  by_cases hl : g2.lastWasEnd = true
                  · simp only [ne_eq, hn, not_false_eq_true, if_true, true_and, if_pos hl, (endNS_fields _ _).2.2.2, h5]
                  · simp [hn, hl, (endNS_fields _ _).2.2.2]
              rw [ihr _ g' h, u2, ihc _ g2 he, u1]
              simp [names, uses, Bool.or_assoc]
      rw [gen page _ g3 hp, (newlineAndTell_wrote g1).2.2.2]
      rw [s1.2.2.2.2.2.2.2.2.2]
      simp [startDocument, uses]
    have hwp : ∃ data, writePage page = .ok (data, uses (names page)) := by
      refine ⟨((newlineAndTell g3).out).drop (newlineAndTell g1).out.length, ?_⟩
      unfold writePage
      rw [hg1]; dsimp only; rw [hp]; dsimp only; rw [hused]
    obtain ⟨data, hwp⟩ := hwp
    generalize uses (names page) = b at *
    obtain ⟨x1, hx1⟩ : ∃ x1, start (startDocument b) "svg".toList attrs = .ok x1 := by
      rw [start_enabled, convertAttrs_iff]
      intro n hn
      obtain ⟨a, ha', rfl⟩ := List.mem_map.mp hn
      exact .inl (ha a ha')
    have hdefs : (∃ x2, writeDefs x1 defs = .ok x2) ↔ ∀ n ∈ names defs, Plain n ∨ (Link n ∧ b = true) := by
      unfold writeDefs
      by_cases hn : defs = .nil
      · subst hn
        rw [if_pos rfl]
        exact ⟨fun _ n hn => by simp [names] at hn, fun _ => ⟨x1, rfl⟩⟩
      · rw [if_neg hn, (emit_iff _ x1).1, start_keeps _ _ _ _ hx1]
        simp only [names, List.map_nil, List.nil_append, List.append_nil]
        rfl
    constructor
    · rintro ⟨file, h⟩
      refine ⟨hok, hdefs.mp ?_⟩
      unfold write at h
      rw [hwp] at h
      dsimp only at h
      rw [hx1] at h
      dsimp only at h
      cases hd : writeDefs x1 defs with
      | error e => rw [hd] at h; cases h
      | ok x2 => exact ⟨x2, rfl⟩
    · rintro ⟨_, h⟩
      obtain ⟨x2, hx2⟩ := hdefs.mpr h
      unfold write
      rw [hwp]; dsimp only; rw [hx1]; dsimp only; rw [hx2]
      exact ⟨_, rfl⟩

/-- **C148 (namespaces).** Whenever a file is written and a name in it has a prefix, the prefix is declared. -/
theorem prefixes_declared (attrs : Attrs) (ha : ∀ a ∈ attrs, Plain a.1) (defs page : Xml) (file : Str) (h : write attrs defs page = .ok file) (n : Str) (hn : n ∈ names (elements defs page)) (hp : ¬ Plain n) :
    Link n ∧ ("xmlns:xlink".toList, xlinkUri) ∈ declarations (uses (names page)) := by
  obtain ⟨h1, h2⟩ := (write_iff attrs ha defs page).mp ⟨file, h⟩
  have hd : uses (names page) = true → ("xmlns:xlink".toList, xlinkUri) ∈ declarations (uses (names page)) := by
    intro e; rw [e]; simp [declarations]
  have page_case : n ∈ names page → Link n ∧ ("xmlns:xlink".toList, xlinkUri) ∈ declarations (uses (names page)) := fun hm =>
    ⟨(h1 n hm).resolve_left hp, hd ((uses_iff _).mpr ⟨n, hm, hp⟩)⟩
  unfold elements at hn
  split_ifs at hn with hnil
  · exact page_case hn
  · simp only [names, List.map_nil, List.nil_append, List.mem_append] at hn
    rcases hn with hn | hn
    · obtain ⟨l1, l2⟩ := (h2 n hn).resolve_left hp
      exact ⟨l1, hd l2⟩
    · exact page_case hn

/-- An image in a pattern: the page itself has no link, thus the file cannot be written. -/
theorem image_in_pattern_fails :
    write [] (.elem "pattern".toList [("id".toList, "p".toList)] (.elem "image".toList [("xlink:href".toList, "data:".toList)] .nil .nil) .nil) (.elem "path".toList [("fill".toList, "url(#p)".toList)] .nil .nil) = .error .xlink ∧
    (∃ file, write [] .nil (.elem "image".toList [("xlink:href".toList, "data:".toList)] .nil .nil) = .ok file) := by
  constructor
  · decide +kernel
  · rw [write_iff _ (by simp)]
    refine ⟨?_, by simp [names]⟩
    intro n hn
    right
    simp only [names, List.map_cons, List.map_nil, List.append_nil, List.mem_singleton] at hn
    subst hn
    exact ⟨"href".toList, by decide, by decide⟩

/-- A text in a group: no space is added in the text. -/
example : write [("fill".toList, "none".toList)] .nil (.elem "g".toList [] (.elem "text".toList [] (.chars "a<".toList (.elem "tspan".toList [("dx".toList, "1".toList)] (.chars "b".toList .nil) .nil)) .nil) .nil) =
    .ok ("<?xml version=\"1.0\" encoding=\"utf-8\"?>\n<svg xmlns=\"http://www.w3.org/2000/svg\" fill=\"none\">\n <g>\n  <text>a&lt;<tspan dx=\"1\">b</tspan></text>\n </g>\n</svg>\n").toList := by
  decide +kernel

end PyX.Svg.Write
