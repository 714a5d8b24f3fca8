import Verif.Path.PdfProps
import Verif.Path.ArctProps
import Verif.NormPath.SubProps

/-!
# C96: the begin and the end of a path are those of its drawing
-/

set_option linter.unusedSectionVars false

namespace PyX.Path

open Real PyX.NormPath

noncomputable section

/-! ## Model -/

variable (roots : ℝ → ℝ → ℝ → ℝ → List ℝ) (eps : Option ℝ) (n : ℕ)

/-- `path.atend_pt` (`path.py:1153-1155`, `normpath.py:1707-1712`, `normpath.py:1025-1029`); the exception of an empty path and the `IndexError` of an empty
sub-path are both written as `index`. -/
def atEnd (is : List PItem) : Except PErr Pt :=
  match normpath roots eps n is with
  | .error e => .error e
  | .ok np =>
    match np.subs.getLast?.bind Sub.end_ with
    | some p => .ok p
    | none => .error (.norm .index)

/-- `path.atbegin_pt` (`path.py:1145-1147`, `normpath.py:1695-1700`, `normpath.py:1019-1023`). -/
def atBegin (is : List PItem) : Except PErr Pt :=
  match normpath roots eps n is with
  | .error e => .error e
  | .ok np =>
    match np.subs.head?.bind Sub.begin_ with
    | some p => .ok p
    | none => .error (.norm .index)

/-! ## Sub-paths -/

/-- No condition on the distance of the items. -/
def anyway (_ _ : ℝ × ℝ) : Prop := True

/-- The sub-path goes from the begin to the current point of the context; it may be empty, as long as these are the same. -/
def Ends (e : ℝ) (s : Sub) (c : Ctx) : Prop :=
  Sub.Inv (some e) anyway s ∧ ((s.begin_ = none ∧ s.end_ = none ∧ c.cur = c.first) ∨ (s.begin_ = some c.first ∧ s.end_ = some c.cur))

theorem anyway_auto (e : ℝ) : Sub.Auto (some e) anyway := ⟨e, rfl, fun _ _ _ => trivial⟩

theorem fresh_ends (e : ℝ) (p : Pt) : Ends e Sub.fresh ⟨p, p⟩ :=
  ⟨⟨by simp [Sub.fresh], fun _ _ h => by simp [Sub.fresh] at h, fun h => by simp [Sub.fresh] at h, fun _ => rfl⟩, Or.inl ⟨rfl, rfl, rfl⟩⟩

theorem append_ends (e : ℝ) (s s' : Sub) (c : Ctx) (i : Item ℝ) (hs : Ends e s c) (hi : i.begin_ = c.cur)
    (h : s.append roots (some e) n i = (s', none)) : Ends e s' ⟨i.end_, c.first⟩ ∧ s'.closed = false := by
  cases hc : s.closed with
  | true =>
    obtain ⟨err, he⟩ := Sub.append_closed roots (R := anyway) (fun _ => trivial) n s i e hc
    rw [he] at h
    cases h
  | false =>
    have g := Sub.append_good roots (some e) (R := anyway) (fun _ => trivial) n s i hs.1 hc (Or.inl (anyway_auto e))
    rw [h] at g
    refine ⟨⟨g.inv, Or.inr ⟨?_, g.end_ rfl⟩⟩, g.closed⟩
    rw [g.begin_ rfl]
    rcases hs.2 with ⟨h1, _, h3⟩ | ⟨h1, _⟩
    · rw [h1, hi, h3]; rfl
    · rw [h1]; rfl

theorem extend_ends (e : ℝ) (is : List (Item ℝ)) (s s' : Sub) (c : Ctx) (hs : Ends e s c) (hi : ∀ i, is.head? = some i → i.begin_ = c.cur)
    (h : s.extend roots (some e) n is = (s', none)) : Ends e s' ⟨(is.getLast?.map Item.end_).getD c.cur, c.first⟩ := by
  cases is with
  | nil =>
    simp only [Sub.extend, Sub.extendWith, Prod.mk.injEq] at h
    rw [← h.1]
    exact hs
  | cons i is =>
    cases hc : s.closed with
    | true =>
      obtain ⟨err, he⟩ := Sub.append_closed roots (R := anyway) (fun _ => trivial) n s i e hc
      simp only [Sub.extend, Sub.extendWith, he] at h
      cases h
    | false =>
      obtain ⟨g1, g2, g3⟩ := Sub.extendWith_good (some e) (R := anyway) (fun _ => trivial) (Sub.append roots (some e) n) (i :: is)
        (fun s i hs hc hf => Sub.append_good roots (some e) (fun _ => trivial) n s i hs hc hf) s hs.1 hc (Or.inl (anyway_auto e))
      unfold Sub.extend at h
      rw [h] at g1 g2 g3
      obtain ⟨last, hlast⟩ : ∃ last, (i :: is).getLast? = some last := ⟨_, List.getLast?_cons⟩
      obtain ⟨g4, g5⟩ := g3 rfl i last rfl hlast
      refine ⟨g1, Or.inr ⟨?_, by rw [g4, hlast]; rfl⟩⟩
      rw [g5]
      rcases hs.2 with ⟨h1, _, h3⟩ | ⟨h1, _⟩
      · rw [h1, hi i rfl, h3]; rfl
      · rw [h1]; rfl

theorem close_ends (e : ℝ) (s s' : Sub) (c : Ctx) (hs : Ends e s c) (h : s.close roots (some e) n = (s', none)) :
    Ends e s' ⟨c.first, c.first⟩ := by
  refine ⟨by have := (Sub.close_good roots (some e) (R := anyway) (fun _ => trivial) n s hs.1).1; rwa [h] at this, ?_⟩
  unfold Sub.close at h
  cases hc : s.closed with
  | true => rw [hc] at h; simp at h
  | false =>
    rw [hc, if_neg (by simp)] at h
    cases hfirst : s.items.head? with
    | none => rw [hfirst] at h; simp at h
    | some first =>
      cases hlast : s.items.getLast? with
      | none => rw [hfirst, hlast] at h; simp at h
      | some last =>
        rw [hfirst, hlast] at h
        simp only at h
        have g := Sub.append_good roots (some e) (R := anyway) (fun _ => trivial) n s
          (.line ⟨last.end_.1, last.end_.2, first.begin_.1, first.begin_.2⟩) hs.1 hc (Or.inl (anyway_auto e))
        rcases ha : Sub.append roots (some e) n s (.line ⟨last.end_.1, last.end_.2, first.begin_.1, first.begin_.2⟩) with ⟨s1, err⟩
        rw [ha] at g h
        cases err with
        | some e => simp at h
        | none =>
          simp only at h
          obtain ⟨f1, f2, f3⟩ := Sub.flush_good roots (some e) (R := anyway) (fun _ => trivial) n s1 g.inv g.closed
          rcases hfl : Sub.flush roots (some e) n s1 with ⟨s2, err⟩
          rw [hfl] at f1 f2 f3 h
          cases err with
          | some e => simp at h
          | none =>
            simp only [Prod.mk.injEq, and_true] at h
            obtain ⟨k1, k2, k3⟩ := f3 rfl
            simp only at k2 k3
            have hb : s.begin_ = some first.begin_ := by
              rw [Sub.begin_items s (by intro h; rw [h] at hfirst; simp at hfirst), hfirst]; rfl
            have hcf : first.begin_ = c.first := by
              rcases hs.2 with ⟨h1, _⟩ | ⟨h1, _⟩
              · rw [h1] at hb; cases hb
              · rw [h1] at hb; exact (Option.some.inj hb).symm
            have e1 : s2.end_ = some first.begin_ := by rw [k2, g.end_ rfl]; rfl
            have e2 : s2.begin_ = some first.begin_ := by rw [k3, g.begin_ rfl, hb]; rfl
            rw [← hcf, ← h]
            exact Or.inr ⟨e2, e1⟩

/-! ## Paths -/

/-- The first sub-path begins at `p` (or is empty), and the last one goes from the begin to the current point of the context. -/
def PathEnds (e : ℝ) (p : Pt) (np : NP) (c : Ctx) : Prop :=
  ∃ pre s, np.subs = pre ++ [s] ∧ Ends e s c ∧ (pre = [] → c.first = p) ∧ ∀ h, pre.head? = some h → h.begin_ = none ∨ h.begin_ = some p

theorem lift_ok (o : Out) (s : Sub) : lift o = .ok s ↔ o = (s, none) := by
  obtain ⟨s', err⟩ := o
  cases err <;> simp [lift]

theorem onLast_ends (e : ℝ) (p : Pt) (np np' : NP) (c : Ctx) (q : Pt) (f : Sub → Out) (hn : PathEnds e p np c)
    (hf : ∀ s s', Ends e s c → f s = (s', none) → Ends e s' ⟨q, c.first⟩) (h : onLast np f = .ok np') : PathEnds e p np' ⟨q, c.first⟩ := by
  obtain ⟨pre, s, h1, h2, h3, h4⟩ := hn
  unfold onLast at h
  rw [h1] at h
  simp only [List.getLast?_append, List.getLast?_singleton, Option.some_or, List.dropLast_concat] at h
  cases hl : lift (f s) with
  | error err => rw [hl] at h; cases h
  | ok s' =>
    rw [hl] at h
    simp only [Except.map, Except.ok.injEq] at h
    subst h
    exact ⟨pre, s', rfl, hf s s' h2 ((lift_ok _ _).mp hl), h3, h4⟩

theorem addSub_ends (e : ℝ) (p : Pt) (np np' : NP) (c d : Ctx) (o : Out) (hn : PathEnds e p np c)
    (hf : ∀ s, o = (s, none) → Ends e s d) (h : addSub np o = .ok np') : PathEnds e p np' d := by
  obtain ⟨pre, s, h1, h2, h3, h4⟩ := hn
  unfold addSub at h
  cases hl : lift o with
  | error err => rw [hl] at h; cases h
  | ok s' =>
    rw [hl] at h
    simp only [Except.map, Except.ok.injEq] at h
    subst h
    refine ⟨pre ++ [s], s', by simp only [h1], hf s' ((lift_ok _ _).mp hl), by simp, fun x hx => ?_⟩
    cases pre with
    | nil =>
      simp only [List.nil_append, List.head?_cons, Option.some.injEq] at hx
      subst hx
      rcases h2.2 with ⟨h5, _⟩ | ⟨h5, _⟩
      · exact Or.inl h5
      · exact Or.inr (by rw [h5, h3 rfl])
    | cons a pre => exact h4 x (by simpa using hx)

theorem make_ends (e : ℝ) (is : List (Item ℝ)) (s : Sub) (p : Pt) (hi : ∀ i, is.head? = some i → i.begin_ = p)
    (h : Sub.make roots (some e) n is false = (s, none)) : Ends e s ⟨(is.getLast?.map Item.end_).getD p, p⟩ := by
  unfold Sub.make at h
  rcases hx : Sub.extend roots (some e) n Sub.fresh is with ⟨s', err⟩
  rw [hx] at h
  cases err with
  | some err => simp at h
  | none =>
    simp only [Bool.false_eq_true, if_false, Prod.mk.injEq, and_true] at h
    subst h
    exact extend_ends roots n e is _ _ ⟨p, p⟩ (fresh_ends e p) hi hx

theorem movetoSub_ends (e : ℝ) (p : Pt) (s : Sub) (h : movetoSub roots (some e) n p = (s, none)) : Ends e s ⟨p, p⟩ :=
  make_ends roots n e [lineItem p p] s p (fun i hi => by cases hi; rfl) h

/-! ## Arcs -/

theorem arctobezierpath_last (x y r a1 a2 : ℝ) :
    ((arctobezierpath x y r a1 a2).getLast?.map Curve.end_).getD (arcpoint x y r a1) = arcpoint x y r a2 := by
  by_cases hn : arctobezierpath x y r a1 a2 = []
  · rw [hn]
    exact arctobezierpath_nil x y r a1 a2 hn
  · have hr : r ≠ 0 := by rintro rfl; simp [arctobezierpath] at hn
    have ha : a1 ≠ a2 := by
      rintro rfl
      have hpi := pi_pos
      simp [arctobezierpath, bezierEndAngle, show ¬ radians a1 + 2 * π < radians a1 by linarith] at hn
    rw [(arctobezierpath_spec x y r a1 a2 hr ha).2.1]
    rfl

theorem arcnCurves_last (x y r a1 a2 : ℝ) :
    ((arcnCurves x y r a1 a2).getLast?.map Curve.end_).getD (arcpoint x y r a1) = arcpoint x y r a2 := by
  unfold arcnCurves
  cases hl : arctobezierpath x y r a2 a1 with
  | nil => exact (arctobezierpath_nil x y r a2 a1 hl).symm
  | cons c cs =>
    simp only [List.reverse_cons, List.map_append, List.map_cons, List.map_nil, List.getLast?_append, List.getLast?_singleton, Option.some_or, Option.map_some,
      Option.getD_some]
    exact arctobezierpath_head x y r a2 a1 c cs hl

theorem curves_extend (e : ℝ) (cs : List (Curve ℝ)) (s s' : Sub) (c : Ctx) (hs : Ends e s c) (hi : ∀ i is, cs = i :: is → i.begin_ = c.cur)
    (h : s.extend roots (some e) n (cs.map .curve) = (s', none)) : Ends e s' ⟨(cs.getLast?.map Curve.end_).getD c.cur, c.first⟩ := by
  have := extend_ends roots n e (cs.map .curve) s s' c hs (fun i h1 => by
    cases cs with
    | nil => simp at h1
    | cons d cs =>
      simp only [List.map_cons, List.head?_cons, Option.some.injEq] at h1
      rw [← h1]
      exact hi d cs rfl) h
  rw [List.getLast?_map, Option.map_map] at this
  exact this

theorem arcStart_ends (e : ℝ) (p : Pt) (np np' : NP) (c : Ctx) (q : Pt) (hn : PathEnds e p np c)
    (h : arcStart roots (some e) n np c.cur q = .ok np') : PathEnds e p np' ⟨q, c.first⟩ := by
  have hn' := hn
  obtain ⟨pre, s, h1, h2, h3, h4⟩ := hn'
  unfold arcStart at h
  rw [h1] at h
  simp only [List.getLast?_append, List.getLast?_singleton, Option.some_or] at h
  cases hc : s.closed with
  | true =>
    rw [hc, if_pos rfl] at h
    refine addSub_ends e p np np' c _ _ hn (fun s' hs' => ?_) h
    have := make_ends roots n e [lineItem c.cur q] s' c.cur (fun i hi => by cases hi; rfl) hs'
    have hcf : c.cur = c.first := by
      obtain ⟨_, first, last, h5, h6, h7⟩ := h2.1.closed hc
      rcases h2.2 with ⟨_, _, h8⟩ | ⟨h8, h9⟩
      · exact h8
      · rw [Sub.begin_items s (by intro h; rw [h] at h5; cases h5), h5] at h8
        unfold Sub.end_ at h9
        rw [(h2.1.closed hc).1, h6] at h9
        simp only [Option.map_some, Option.some.injEq] at h8 h9
        rw [← h9, ← h8, h7]
    rw [hcf] at this
    exact this
  | false =>
    rw [hc, if_neg (by simp)] at h
    exact onLast_ends e p np np' c q _ hn (fun s s' hs hs' => (append_ends roots n e s s' c (lineItem c.cur q) hs rfl hs').1) h

theorem lineItems_ends (cur : Pt) (ps : List Pt) :
    (∀ i, (lineItems cur ps).head? = some i → i.begin_ = cur) ∧ ((lineItems cur ps).getLast?.map Item.end_).getD cur = ps.getLast?.getD cur := by
  induction ps generalizing cur with
  | nil => exact ⟨fun i h => (by cases h), rfl⟩
  | cons p ps ih =>
    refine ⟨fun i h => by cases h; rfl, ?_⟩
    simp only [lineItems, List.getLast?_cons, Option.map_some, Option.getD_some]
    rw [← (ih p).2]
    cases (lineItems p ps).getLast? <;> rfl

theorem curveItems_ends (cur : Pt) (ps : List (Pt × Pt × Pt)) :
    (∀ i, (curveItems cur ps).head? = some i → i.begin_ = cur) ∧
    ((curveItems cur ps).getLast?.map Item.end_).getD cur = (ps.getLast?.map fun q => q.2.2).getD cur := by
  induction ps generalizing cur with
  | nil => exact ⟨fun i h => (by cases h), rfl⟩
  | cons q ps ih =>
    refine ⟨fun i h => by cases h; rfl, ?_⟩
    simp only [curveItems, List.getLast?_cons, Option.map_some, Option.getD_some]
    have := (ih q.2.2).2
    cases h1 : (curveItems q.2.2 ps).getLast? <;> cases h2 : ps.getLast? <;> rw [h1, h2] at this <;> first | rfl | exact this

theorem update_ends (e : ℝ) (p : Pt) (np np' : NP) (c : Ctx) (i : PItem) (hi : isArct i = false) (hn : PathEnds e p np c)
    (h : updatenormpath roots (some e) n np c i = .ok np') : PathEnds e p np' (advance c i) := by
  cases i with
  | closepath => exact onLast_ends e p np np' c c.first _ hn (fun s s' hs h => close_ends roots n e s s' c hs h) h
  | moveto q => exact addSub_ends e p np np' c _ _ hn (fun s hs => movetoSub_ends roots n e q s hs) h
  | lineto q => exact onLast_ends e p np np' c q _ hn (fun s s' hs h => (append_ends roots n e s s' c (lineItem c.cur q) hs rfl h).1) h
  | curveto p1 p2 p3 => exact onLast_ends e p np np' c p3 _ hn (fun s s' hs h => (append_ends roots n e s s' c (curveItem c.cur p1 p2 p3) hs rfl h).1) h
  | rmoveto d => exact addSub_ends e p np np' c _ _ hn (fun s hs => movetoSub_ends roots n e _ s hs) h
  | rlineto d => exact onLast_ends e p np np' c (c.cur + d) _ hn (fun s s' hs h => (append_ends roots n e s s' c (lineItem c.cur (c.cur.1 + d.1, c.cur.2 + d.2)) hs rfl h).1) h
  | rcurveto d1 d2 d3 => exact onLast_ends e p np np' c (c.cur + d3) _ hn (fun s s' hs h => (append_ends roots n e s s' c (curveItem c.cur (c.cur.1 + d1.1, c.cur.2 + d1.2) (c.cur.1 + d2.1, c.cur.2 + d2.2) (c.cur.1 + d3.1, c.cur.2 + d3.2)) hs rfl h).1) h
  | arc x y r a1 a2 =>
    simp only [updatenormpath] at h
    cases hs : arcStart roots (some e) n np c.cur (arcpoint x y r a1) with
    | error err => rw [hs] at h; cases h
    | ok np1 =>
      rw [hs] at h
      refine onLast_ends e p np1 np' ⟨arcpoint x y r a1, c.first⟩ _ _ (arcStart_ends roots n e p np np1 c _ hn hs) (fun s s' hs h => ?_) h
      have := curves_extend roots n e _ s s' ⟨arcpoint x y r a1, c.first⟩ hs (fun i is hi => arctobezierpath_head x y r a1 a2 i is hi) h
      rwa [arctobezierpath_last] at this
  | arcn x y r a1 a2 =>
    simp only [updatenormpath] at h
    cases hs : arcStart roots (some e) n np c.cur (arcpoint x y r a1) with
    | error err => rw [hs] at h; cases h
    | ok np1 =>
      rw [hs] at h
      refine onLast_ends e p np1 np' ⟨arcpoint x y r a1, c.first⟩ _ _ (arcStart_ends roots n e p np np1 c _ hn hs) (fun s s' hs h => ?_) h
      have := curves_extend roots n e _ s s' ⟨arcpoint x y r a1, c.first⟩ hs (fun i is hi => arcnCurves_head x y r a1 a2 i is hi) h
      rwa [arcnCurves_last] at this
  | multilineto ps =>
    refine onLast_ends e p np np' c _ _ hn (fun s s' hs h => ?_) h
    have := extend_ends roots n e _ s s' c hs (lineItems_ends c.cur ps).1 h
    rwa [(lineItems_ends c.cur ps).2] at this
  | multicurveto ps =>
    refine onLast_ends e p np np' c _ _ hn (fun s s' hs h => ?_) h
    have := extend_ends roots n e _ s s' c hs (curveItems_ends c.cur ps).1 h
    rwa [(curveItems_ends c.cur ps).2] at this
  | arct p1 p2 r => cases hi

theorem expand_noarct' (cur : Pt) (i : PItem) (js : List PItem) (h : expand cur i = .ok js) : ∀ j ∈ js, isArct j = false := by
  cases i with
  | arct p1 p2 r =>
    obtain ⟨p, rfl⟩ | ⟨p, x, y, r, a1, a2, rfl⟩ | ⟨p, x, y, r, a1, a2, rfl⟩ := arctItems_form _ _ _ _ _ h <;> simp [isArct]
  | _ => simp only [expand, Except.ok.injEq] at h; subst h; simp [isArct]

theorem updates_ends (e : ℝ) (p : Pt) (js : List PItem) (np np' : NP) (c c' : Ctx) (hj : ∀ j ∈ js, isArct j = false) (hn : PathEnds e p np c)
    (h : updatenormpaths roots (some e) n np c js = .ok (np', c')) : PathEnds e p np' c' ∧ c' = js.foldl advance c := by
  induction js generalizing np c with
  | nil =>
    simp only [updatenormpaths, Except.ok.injEq, Prod.mk.injEq] at h
    rw [← h.1, ← h.2]
    exact ⟨hn, rfl⟩
  | cons j js ih =>
    simp only [updatenormpaths] at h
    cases hu : updatenormpath roots (some e) n np c j with
    | error err => rw [hu] at h; cases h
    | ok np1 =>
      rw [hu] at h
      exact ih np1 (advance c j) (fun k hk => hj k (List.mem_cons_of_mem _ hk)) (update_ends roots n e p np np1 c j (hj j List.mem_cons_self) hn hu) h

theorem loop_ends (A : Arcs) (hA : ArctEnds A) (e : ℝ) (p : Pt) (is : List PItem) (np np' : NP) (c : Ctx) (st : PenState) (hk : Knows st c)
    (hn : PathEnds e p np c) (h : normLoop roots (some e) n np c is = .ok np') :
    ∃ c', PathEnds e p np' c' ∧ Knows ((outputPS is).foldl (psStep A) st) c' := by
  induction is generalizing np c st with
  | nil =>
    simp only [normLoop, Except.ok.injEq] at h
    subst h
    exact ⟨c, hn, hk⟩
  | cons i is ih =>
    simp only [normLoop] at h
    cases he : expand c.cur i with
    | error err => rw [he] at h; cases h
    | ok js =>
      rw [he] at h
      simp only at h
      cases hu : updatenormpaths roots (some e) n np c js with
      | error err => rw [hu] at h; cases h
      | ok s =>
        rw [hu] at h
        simp only at h
        obtain ⟨u1, u2⟩ := updates_ends roots n e p js np s.1 c s.2 (expand_noarct' _ i js he) hn hu
        have hk' := knows_step A hA st c hk i js he
        have h4 : after c i = js.foldl advance c := by simp only [after, he]
        rw [h4, ← u2] at hk'
        obtain ⟨c', d1, d2⟩ := ih s.1 s.2 _ hk' u1 h
        refine ⟨c', d1, ?_⟩
        simp only [outputPS, List.flatMap_cons, List.foldl_append]
        exact d2

/-- `isinstance(item, arcn_pt)`. -/
def isArcn : PItem → Bool
  | .arcn _ _ _ _ _ => true
  | _ => false

/-- The first point of a path. -/
def firstPoint : PItem → Option Pt
  | .moveto p => some p
  | .arc x y r a1 _ => some (arcpoint x y r a1)
  | .arcn x y r a1 _ => some (arcpoint x y r a1)
  | _ => none

theorem create_ends (e : ℝ) (i : PItem) (np : NP) (c : Ctx) (hi : isArcn i = false) (h : createnormpath roots (some e) n i = .ok np)
    (hc : createcontext i = .ok c) : PathEnds e c.first np c ∧ firstPoint i = some c.first := by
  cases i <;> simp only [createcontext, Except.ok.injEq, reduceCtorEq] at hc
  case arcn => cases hi
  case moveto p =>
    subst hc
    simp only [createnormpath] at h
    cases hl : lift (Sub.make roots (some e) n [.line ⟨p.1, p.2, p.1, p.2⟩] false) with
    | error err => rw [hl] at h; cases h
    | ok s =>
      rw [hl] at h
      simp only [Except.map, Except.ok.injEq] at h
      subst h
      exact ⟨⟨[], s, rfl, movetoSub_ends roots n e p s ((lift_ok _ _).mp hl), fun _ => rfl, fun x hx => by cases hx⟩, rfl⟩
  case arc x y r a1 a2 =>
    subst hc
    simp only [createnormpath] at h
    cases hl : lift (Sub.make roots (some e) n ((arctobezierpath x y r a1 a2).map .curve) false) with
    | error err => rw [hl] at h; cases h
    | ok s =>
      rw [hl] at h
      simp only [Except.map, Except.ok.injEq] at h
      subst h
      refine ⟨⟨[], s, rfl, ?_, fun _ => rfl, fun x hx => by cases hx⟩, rfl⟩
      have := make_ends roots n e _ s (arcpoint x y r a1) (fun i hi => by
        cases hl : arctobezierpath x y r a1 a2 with
        | nil => rw [hl] at hi; cases hi
        | cons d ds =>
          rw [hl] at hi
          simp only [List.map_cons, List.head?_cons, Option.some.injEq] at hi
          rw [← hi]
          exact arctobezierpath_head x y r a1 a2 d ds hl) ((lift_ok _ _).mp hl)
      rw [List.getLast?_map, Option.map_map] at this
      have h2 := arctobezierpath_last x y r a1 a2
      rw [show Item.end_ ∘ Item.curve = Curve.end_ from rfl, h2] at this
      exact this

/-! ## C96 -/

/-- C96: the point reported as the end of a path is the current point after drawing it. -/
theorem atEnd_current_partial (A : Arcs) (hA : ArctEnds A) (e : ℝ) (is : List PItem) (q : Pt) (hi : ∀ i, is.head? = some i → isArcn i = false)
    (h : atEnd roots (some e) n is = .ok q) : ∃ s, runPS A (outputPS is) = .pen s ∧ s.cur = q := by
  unfold atEnd at h
  cases is with
  | nil => simp [normpath] at h
  | cons i is =>
    simp only [normpath] at h
    cases hb : createnormpath roots (some e) n i with
    | error err => rw [hb] at h; cases h
    | ok np =>
      rw [hb] at h
      cases hc : createcontext i with
      | error err => rw [hc] at h; cases h
      | ok c =>
        rw [hc] at h
        simp only at h
        cases hl : normLoop roots (some e) n np c is with
        | error err => rw [hl] at h; cases h
        | ok np' =>
          rw [hl] at h
          simp only at h
          obtain ⟨g1, _⟩ := create_ends roots n e i np c (hi i rfl) hb hc
          obtain ⟨c', d1, s, d2, d3, _⟩ := loop_ends roots n A hA e _ is np np' c _ (knows_create A i c hc) g1 hl
          obtain ⟨pre, s', e1, e2, _⟩ := d1
          rw [e1] at h
          simp only [List.getLast?_append, List.getLast?_singleton, Option.some_or, Option.bind_some] at h
          refine ⟨s, by simpa only [runPS, outputPS, List.flatMap_cons, List.foldl_append] using d2, ?_⟩
          rcases e2.2 with ⟨_, e3, _⟩ | ⟨_, e3⟩
          · rw [e3] at h; cases h
          · rw [e3] at h
            simp only [Except.ok.injEq] at h
            rw [d3, h]

/-- C96: the point reported as the begin of a path is its first point. -/
theorem atBegin_first_partial (e : ℝ) (i : PItem) (is : List PItem) (q : Pt) (hi : isArcn i = false)
    (h : atBegin roots (some e) n (i :: is) = .ok q) : firstPoint i = some q := by
  unfold atBegin at h
  simp only [normpath] at h
  cases hb : createnormpath roots (some e) n i with
  | error err => rw [hb] at h; cases h
  | ok np =>
    rw [hb] at h
    cases hc : createcontext i with
    | error err => rw [hc] at h; cases h
    | ok c =>
      rw [hc] at h
      simp only at h
      cases hl : normLoop roots (some e) n np c is with
      | error err => rw [hl] at h; cases h
      | ok np' =>
        rw [hl] at h
        simp only at h
        obtain ⟨g1, g2⟩ := create_ends roots n e i np c hi hb hc
        obtain ⟨c', ⟨pre, s', e1, e2, e3, e4⟩, _⟩ := loop_ends roots n ⟨arctobezierpath, arcnCurves, arctOf⟩ arctEnds_example e _ is np np' c _
          (knows_create ⟨arctobezierpath, arcnCurves, arctOf⟩ i c hc) g1 hl
        rw [g2]
        rw [e1] at h
        cases pre with
        | nil =>
          simp only [List.nil_append, List.head?_cons, Option.bind_some] at h
          rcases e2.2 with ⟨e5, _⟩ | ⟨e5, _⟩
          · rw [e5] at h; cases h
          · rw [e5] at h
            simp only [Except.ok.injEq] at h
            rw [← e3 rfl, h]
        | cons a pre =>
          simp only [List.cons_append, List.head?_cons, Option.bind_some] at h
          rcases e4 a rfl with e5 | e5
          · rw [e5] at h; cases h
          · rw [e5] at h
            simp only [Except.ok.injEq] at h
            rw [h]

/-! ## Example -/

theorem hypot_axis (x : ℝ) (hx : 0 ≤ x) : hypot x 0 = x ∧ hypot 0 x = x := by
  simp [hypot, Real.sqrt_sq hx]

/-- Two lines: the end is reached. -/
example (roots : ℝ → ℝ → ℝ → ℝ → List ℝ) :
    atEnd roots (some (1 / 2)) 1 [.moveto (0, 0), .lineto (1, 0), .rlineto (0, 1)] = .ok (1, 1) := by
  have h0 : hypot 0 0 = 0 := (hypot_axis 0 le_rfl).1
  have h1 : hypot 1 0 = 1 := (hypot_axis 1 zero_le_one).1
  have h2 : hypot 0 1 = 1 := (hypot_axis 1 zero_le_one).2
  have h4 : (2⁻¹ : ℝ) ≤ 1 := by norm_num
  have h5 : ¬ (2⁻¹ : ℝ) ≤ 0 := by norm_num
  simp [atEnd, normpath, createnormpath, createcontext, normLoop, expand, updatenormpaths, updatenormpath, onLast, advance, Sub.make, Sub.extend,
    Sub.extendWith, Sub.append, Sub.matches_, Sub.end_, Sub.fresh, Sub.adjusted, Sub.skip, Sub.unskip, Sub.push, lift, lineItem, Except.map, Item.modifiedbegin,
    Item.begin_, Item.end_, Line.begin_, Line.end_, Line.modifiedbegin, h0, h1, h2, h4, h5]

end

end PyX.Path
