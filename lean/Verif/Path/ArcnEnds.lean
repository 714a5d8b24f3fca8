import Verif.Path.EndProps
import Verif.NormPath.SubCrossProps

/-!
# C96 for paths beginning with a clockwise arc

The normpath of such an arc is the reversed normpath of the arc in the other direction (`path.py:717-722`), and `reversed` forgets a remembered short line
(`normpath.py:1284-1289`).  The begin of the path is then not that of the arc, but it is closer to it than epsilon; the same holds for the end after a
`closepath` going back there.
-/

set_option linter.unusedSectionVars false

namespace PyX.Path

open Real PyX.NormPath

noncomputable section

variable (roots : ℝ → ℝ → ℝ → ℝ → List ℝ) (n : ℕ)

/-- Specification: the same point or closer than epsilon. -/
def Same (e : ℝ) (p q : Pt) : Prop := p = q ∨ dist2 p q < e

theorem Same.rfl' {e : ℝ} {p : Pt} : Same e p p := Or.inl rfl

/-- The last sub-path goes from a point close to the begin to the current point of the context, where it is exact unless the sub-path is closed; the first
sub-path begins at `p`. -/
def PathNear (e : ℝ) (p : Pt) (np : NP) (c : Ctx) : Prop :=
  ∃ pre s d, np.subs = pre ++ [s] ∧ Ends e s d ∧ (s.closed = false → d.cur = c.cur) ∧ (s.closed = true → c.cur = c.first) ∧ Same e d.cur c.cur ∧
    Same e d.first c.first ∧ (pre = [] → d.first = p) ∧ ∀ h, pre.head? = some h → h.begin_ = none ∨ h.begin_ = some p

theorem onLast_near (e : ℝ) (p : Pt) (np np' : NP) (c : Ctx) (q : Pt) (f : Sub → Out) (hn : PathNear e p np c)
    (hf : ∀ s s' b, s.closed = false → Ends e s ⟨c.cur, b⟩ → f s = (s', none) → Ends e s' ⟨q, b⟩ ∧ s'.closed = false)
    (hc : ∀ s s', s.closed = true → f s = (s', none) → s' = s ∧ q = c.cur) (h : onLast np f = .ok np') : PathNear e p np' ⟨q, c.first⟩ := by
  obtain ⟨pre, s, d, h1, h2, h3, h4, h5, h6, h7, h8⟩ := hn
  unfold onLast at h
  rw [h1] at h
  simp only [List.getLast?_append, List.getLast?_singleton, Option.some_or, List.dropLast_concat] at h
  cases hl : lift (f s) with
  | error err => rw [hl] at h; cases h
  | ok s' =>
    rw [hl] at h
    simp only [Except.map, Except.ok.injEq] at h
    subst h
    have hl' := (lift_ok _ _).mp hl
    cases hcl : s.closed with
    | true =>
      obtain ⟨rfl, rfl⟩ := hc s s' hcl hl'
      exact ⟨pre, s', d, rfl, h2, h3, h4, h5, h6, h7, h8⟩
    | false =>
      have h2' : Ends e s ⟨c.cur, d.first⟩ := by rw [← h3 hcl]; exact h2
      obtain ⟨g1, g2⟩ := hf s s' d.first hcl h2' hl'
      exact ⟨pre, s', ⟨q, d.first⟩, rfl, g1, fun _ => rfl, fun h => absurd (g2.symm.trans h) (by decide), Same.rfl', h6, h7, h8⟩

theorem close_near (e : ℝ) (p : Pt) (np np' : NP) (c : Ctx) (hn : PathNear e p np c) (h : onLast np (fun s => s.close roots (some e) n) = .ok np') :
    PathNear e p np' ⟨c.first, c.first⟩ := by
  obtain ⟨pre, s, d, h1, h2, h3, h4, h5, h6, h7, h8⟩ := hn
  unfold onLast at h
  rw [h1] at h
  simp only [List.getLast?_append, List.getLast?_singleton, Option.some_or, List.dropLast_concat] at h
  cases hl : lift (s.close roots (some e) n) with
  | error err => rw [hl] at h; cases h
  | ok s' =>
    rw [hl] at h
    simp only [Except.map, Except.ok.injEq] at h
    subst h
    have hl' := (lift_ok _ _).mp hl
    have g1 := close_ends roots n e s s' d h2 hl'
    have g2 : s'.closed = true := by
      have := (Sub.close_good roots (some e) (R := anyway) (fun _ => trivial) n s h2.1).2
      rw [hl'] at this
      exact this rfl
    exact ⟨pre, s', ⟨d.first, d.first⟩, rfl, g1, fun h => absurd (g2.symm.trans h) (by decide), fun _ => rfl, h6, h6, h7, h8⟩

theorem addSub_near (e : ℝ) (p : Pt) (np np' : NP) (c d : Ctx) (o : Out) (hn : PathNear e p np c)
    (hf : ∀ s, o = (s, none) → Ends e s d ∧ s.closed = false) (h : addSub np o = .ok np') : PathNear e p np' d := by
  obtain ⟨pre, s, d', h1, h2, h3, h4, h5, h6, h7, h8⟩ := hn
  unfold addSub at h
  cases hl : lift o with
  | error err => rw [hl] at h; cases h
  | ok s' =>
    rw [hl] at h
    simp only [Except.map, Except.ok.injEq] at h
    subst h
    obtain ⟨g1, g2⟩ := hf s' ((lift_ok _ _).mp hl)
    refine ⟨pre ++ [s], s', d, by simp only [h1], g1, fun _ => rfl, fun h => absurd (g2.symm.trans h) (by decide), Same.rfl', Same.rfl', by simp, fun x hx => ?_⟩
    cases pre with
    | nil =>
      simp only [List.nil_append, List.head?_cons, Option.some.injEq] at hx
      subst hx
      rcases h2.2 with ⟨h9, _⟩ | ⟨h9, _⟩
      · exact Or.inl h9
      · exact Or.inr (by rw [h9, h7 rfl])
    | cons a pre => exact h8 x (by simpa using hx)

/-! ## Nothing is closed by appending -/

theorem append_open (e : ℝ) (s s' : Sub) (c : Ctx) (i : Item ℝ) (hs : Ends e s c) (hi : i.begin_ = c.cur)
    (h : s.append roots (some e) n i = (s', none)) : Ends e s' ⟨i.end_, c.first⟩ ∧ s'.closed = false :=
  append_ends roots n e s s' c i hs hi h

theorem append_refused (e : ℝ) (s s' : Sub) (i : Item ℝ) (hc : s.closed = true) (h : s.append roots (some e) n i = (s', none)) : False := by
  obtain ⟨err, he⟩ := Sub.append_closed roots (R := anyway) (fun _ => trivial) n s i e hc
  rw [he] at h
  cases h

theorem extend_closed (e : ℝ) (is : List (Item ℝ)) (s s' : Sub) (hc : s.closed = true) (h : s.extend roots (some e) n is = (s', none)) :
    s' = s ∧ is = [] := by
  cases is with
  | nil =>
    simp only [Sub.extend, Sub.extendWith, Prod.mk.injEq] at h
    exact ⟨h.1.symm, rfl⟩
  | cons i is =>
    obtain ⟨err, he⟩ := Sub.append_closed roots (R := anyway) (fun _ => trivial) n s i e hc
    simp only [Sub.extend, Sub.extendWith, he] at h
    cases h

theorem extend_open (e : ℝ) (is : List (Item ℝ)) (s s' : Sub) (hs : Sub.Inv (some e) anyway s) (hc : s.closed = false)
    (h : s.extend roots (some e) n is = (s', none)) : s'.closed = false := by
  have := (Sub.extend_good roots (some e) (R := anyway) (fun _ => trivial) n is s hs hc (Or.inl (anyway_auto e))).2.1
  rwa [h] at this

theorem make_open (e : ℝ) (is : List (Item ℝ)) (s : Sub) (h : Sub.make roots (some e) n is false = (s, none)) : s.closed = false := by
  unfold Sub.make at h
  rcases hx : Sub.extend roots (some e) n Sub.fresh is with ⟨s', err⟩
  rw [hx] at h
  cases err with
  | some err => simp at h
  | none =>
    simp only [Bool.false_eq_true, if_false, Prod.mk.injEq, and_true] at h
    subst h
    exact extend_open roots n e is _ _ (fresh_ends e (0, 0)).1 rfl hx

/-! ## The items -/

theorem arcStart_near (e : ℝ) (p : Pt) (np np' : NP) (c : Ctx) (q : Pt) (hn : PathNear e p np c)
    (h : arcStart roots (some e) n np c.cur q = .ok np') :
    PathNear e p np' ⟨q, c.first⟩ ∧ ∀ s, np'.subs.getLast? = some s → s.closed = false := by
  have hn' := hn
  obtain ⟨pre, s, d, h1, h2, h3, h4, h5, h6, h7, h8⟩ := hn'
  unfold arcStart at h
  rw [h1] at h
  simp only [List.getLast?_append, List.getLast?_singleton, Option.some_or] at h
  cases hc : s.closed with
  | true =>
    rw [hc, if_pos rfl] at h
    refine ⟨addSub_near e p np np' c _ _ hn (fun s' hs' => ?_) h, fun t ht => ?_⟩
    · have := make_ends roots n e [lineItem c.cur q] s' c.cur (fun i hi => by cases hi; rfl) hs'
      have ho := make_open roots n e _ _ hs'
      rw [h4 hc] at this
      exact ⟨this, ho⟩
    · unfold addSub at h
      cases hl : lift (Sub.make roots (some e) n [lineItem c.cur q] false) with
      | error err => rw [hl] at h; cases h
      | ok s' =>
        rw [hl] at h
        simp only [Except.map, Except.ok.injEq] at h
        subst h
        simp only [List.getLast?_append, List.getLast?_singleton, Option.some_or, Option.some.injEq] at ht
        rw [← ht]
        exact make_open roots n e _ _ ((lift_ok _ _).mp hl)
  | false =>
    rw [hc, if_neg (by simp)] at h
    refine ⟨onLast_near e p np np' c q _ hn (fun s s' b hs hE hs' => append_open roots n e s s' ⟨c.cur, b⟩ (lineItem c.cur q) hE rfl hs')
      (fun s s' hs hs' => absurd hs' (fun hh => append_refused roots n e s s' _ hs hh)) h, fun t ht => ?_⟩
    unfold onLast at h
    rw [h1] at h
    simp only [List.getLast?_append, List.getLast?_singleton, Option.some_or, List.dropLast_concat] at h
    cases hl : lift (s.append roots (some e) n (lineItem c.cur q)) with
    | error err => rw [hl] at h; cases h
    | ok s' =>
      rw [hl] at h
      simp only [Except.map, Except.ok.injEq] at h
      subst h
      simp only [List.getLast?_append, List.getLast?_singleton, Option.some_or, Option.some.injEq] at ht
      rw [← ht]
      have h2' : Ends e s ⟨c.cur, d.first⟩ := by rw [← h3 hc]; exact h2
      exact (append_open roots n e s s' _ (lineItem c.cur q) h2' rfl ((lift_ok _ _).mp hl)).2

theorem arc_near (e : ℝ) (p : Pt) (np np1 np' : NP) (c : Ctx) (a b : Pt) (cs : List (Curve ℝ)) (hn : PathNear e p np c)
    (hs : arcStart roots (some e) n np c.cur a = .ok np1) (h1 : ∀ i is, cs = i :: is → i.begin_ = a)
    (h2 : (cs.getLast?.map Curve.end_).getD a = b) (h : onLast np1 (fun s => s.extend roots (some e) n (cs.map .curve)) = .ok np') :
    PathNear e p np' ⟨b, c.first⟩ := by
  obtain ⟨g1, g2⟩ := arcStart_near roots n e p np np1 c a hn hs
  refine onLast_near e p np1 np' ⟨a, c.first⟩ b _ g1 (fun s s' f hc hE h => ?_) (fun s s' hc h => ?_) h
  · have := curves_extend roots n e cs s s' ⟨a, f⟩ hE h1 h
    simp only at this
    rw [h2] at this
    exact ⟨this, extend_open roots n e _ s s' hE.1 hc h⟩
  · obtain ⟨e1, e2⟩ := extend_closed roots n e _ s s' hc h
    refine ⟨e1, ?_⟩
    rw [List.map_eq_nil_iff] at e2
    rw [← h2, e2]
    rfl

theorem update_near (e : ℝ) (p : Pt) (np np' : NP) (c : Ctx) (i : PItem) (hi : isArct i = false) (hn : PathNear e p np c)
    (h : updatenormpath roots (some e) n np c i = .ok np') : PathNear e p np' (advance c i) := by
  have hrefused : ∀ (q : Pt) (it : Item ℝ) (s s' : Sub), s.closed = true → s.append roots (some e) n it = (s', none) → s' = s ∧ q = c.cur :=
    fun q it s s' hs hh => absurd hh (fun hh => append_refused roots n e s s' it hs hh)
  cases i with
  | closepath => exact close_near roots n e p np np' c hn h
  | moveto q => exact addSub_near e p np np' c _ _ hn (fun s hs => ⟨movetoSub_ends roots n e q s hs, make_open roots n e _ s hs⟩) h
  | lineto q =>
    exact onLast_near e p np np' c q _ hn (fun s s' b _ hE h => append_open roots n e s s' ⟨c.cur, b⟩ (lineItem c.cur q) hE rfl h) (hrefused q _) h
  | curveto p1 p2 p3 =>
    exact onLast_near e p np np' c p3 _ hn (fun s s' b _ hE h => append_open roots n e s s' ⟨c.cur, b⟩ (curveItem c.cur p1 p2 p3) hE rfl h) (hrefused p3 _) h
  | rmoveto d => exact addSub_near e p np np' c _ _ hn (fun s hs => ⟨movetoSub_ends roots n e _ s hs, make_open roots n e _ s hs⟩) h
  | rlineto d =>
    exact onLast_near e p np np' c (c.cur + d) _ hn
      (fun s s' b _ hE h => append_open roots n e s s' ⟨c.cur, b⟩ (lineItem c.cur (c.cur.1 + d.1, c.cur.2 + d.2)) hE rfl h) (hrefused _ _) h
  | rcurveto d1 d2 d3 =>
    exact onLast_near e p np np' c (c.cur + d3) _ hn
      (fun s s' b _ hE h => append_open roots n e s s' ⟨c.cur, b⟩
        (curveItem c.cur (c.cur.1 + d1.1, c.cur.2 + d1.2) (c.cur.1 + d2.1, c.cur.2 + d2.2) (c.cur.1 + d3.1, c.cur.2 + d3.2)) hE rfl h) (hrefused _ _) h
  | arc x y r a1 a2 =>
    simp only [updatenormpath] at h
    cases hs : arcStart roots (some e) n np c.cur (arcpoint x y r a1) with
    | error err => rw [hs] at h; cases h
    | ok np1 =>
      rw [hs] at h
      exact arc_near roots n e p np np1 np' c _ _ _ hn hs (fun i is hi => arctobezierpath_head x y r a1 a2 i is hi) (arctobezierpath_last x y r a1 a2) h
  | arcn x y r a1 a2 =>
    simp only [updatenormpath] at h
    cases hs : arcStart roots (some e) n np c.cur (arcpoint x y r a1) with
    | error err => rw [hs] at h; cases h
    | ok np1 =>
      rw [hs] at h
      exact arc_near roots n e p np np1 np' c _ _ _ hn hs (fun i is hi => arcnCurves_head x y r a1 a2 i is hi) (arcnCurves_last x y r a1 a2) h
  | multilineto ps =>
    refine onLast_near e p np np' c _ _ hn (fun s s' b hc hE h => ?_) (fun s s' hc h => ?_) h
    · have := extend_ends roots n e _ s s' ⟨c.cur, b⟩ hE (lineItems_ends c.cur ps).1 h
      simp only at this
      rw [(lineItems_ends c.cur ps).2] at this
      exact ⟨this, extend_open roots n e _ s s' hE.1 hc h⟩
    · obtain ⟨e1, e2⟩ := extend_closed roots n e _ s s' hc h
      cases ps with
      | nil => exact ⟨e1, rfl⟩
      | cons _ _ => simp [lineItems] at e2
  | multicurveto ps =>
    refine onLast_near e p np np' c _ _ hn (fun s s' b hc hE h => ?_) (fun s s' hc h => ?_) h
    · have := extend_ends roots n e _ s s' ⟨c.cur, b⟩ hE (curveItems_ends c.cur ps).1 h
      simp only at this
      rw [(curveItems_ends c.cur ps).2] at this
      exact ⟨this, extend_open roots n e _ s s' hE.1 hc h⟩
    · obtain ⟨e1, e2⟩ := extend_closed roots n e _ s s' hc h
      cases ps with
      | nil => exact ⟨e1, rfl⟩
      | cons _ _ => simp [curveItems] at e2
  | arct p1 p2 r => cases hi

theorem updates_near (e : ℝ) (p : Pt) (js : List PItem) (np np' : NP) (c c' : Ctx) (hj : ∀ j ∈ js, isArct j = false) (hn : PathNear e p np c)
    (h : updatenormpaths roots (some e) n np c js = .ok (np', c')) : PathNear e p np' c' ∧ c' = js.foldl advance c := by
  induction js generalizing np c with
  | nil =>
    simp only [updatenormpaths, Except.ok.injEq, Prod.mk.injEq] at h
    rw [← h.1, ← h.2]
    exact ⟨hn, rfl⟩
  | cons j js ih =>
    simp only [updatenormpaths] at h
    cases hu : updatenormpath roots (some e) n np c j with
    | error err => rw [hu] at h; cases h
    | ok np1 =>
      rw [hu] at h
      exact ih np1 (advance c j) (fun k hk => hj k (List.mem_cons_of_mem _ hk)) (update_near roots n e p np np1 c j (hj j List.mem_cons_self) hn hu) h

theorem loop_near (A : Arcs) (hA : ArctEnds A) (e : ℝ) (p : Pt) (is : List PItem) (np np' : NP) (c : Ctx) (st : PenState) (hk : Knows st c)
    (hn : PathNear e p np c) (h : normLoop roots (some e) n np c is = .ok np') :
    ∃ c', PathNear e p np' c' ∧ Knows ((outputPS is).foldl (psStep A) st) c' := by
  induction is generalizing np c st with
  | nil =>
    simp only [normLoop, Except.ok.injEq] at h
    subst h
    exact ⟨c, hn, hk⟩
  | cons i is ih =>
    simp only [normLoop] at h
    cases he : expand c.cur i with
    | error err => rw [he] at h; cases h
    | ok js =>
      rw [he] at h
      simp only at h
      cases hu : updatenormpaths roots (some e) n np c js with
      | error err => rw [hu] at h; cases h
      | ok s =>
        rw [hu] at h
        simp only at h
        obtain ⟨u1, u2⟩ := updates_near roots n e p js np s.1 c s.2 (expand_noarct' _ i js he) hn hu
        have hk' := knows_step A hA st c hk i js he
        have h4 : after c i = js.foldl advance c := by simp only [after, he]
        rw [h4, ← u2] at hk'
        obtain ⟨c', d1, d2⟩ := ih s.1 s.2 _ hk' u1 h
        refine ⟨c', d1, ?_⟩
        simp only [outputPS, List.flatMap_cons, List.foldl_append]
        exact d2

/-! ## Clockwise arcs at the begin -/

theorem arcchain (x y r a1 a2 : ℝ) : (arctobezierpath x y r a1 a2).IsChain fun c d => c.end_ = d.begin_ := by
  by_cases hn : arctobezierpath x y r a1 a2 = []
  · rw [hn]; exact List.IsChain.nil
  · have hr : r ≠ 0 := by rintro rfl; simp [arctobezierpath] at hn
    have ha : a1 ≠ a2 := by
      rintro rfl
      have hpi := pi_pos
      simp [arctobezierpath, bezierEndAngle, show ¬ radians a1 + 2 * π < radians a1 by linarith] at hn
    exact (arctobezierpath_spec x y r a1 a2 hr ha).2.2.1

theorem make_short (e : ℝ) (is : List (Item ℝ)) (s : Sub) (h : Sub.make roots (some e) n is false = (s, none)) : SubCross.ShortSkip e s := by
  unfold Sub.make at h
  rcases hx : Sub.extend roots (some e) n Sub.fresh is with ⟨s', err⟩
  rw [hx] at h
  cases err with
  | some err => simp at h
  | none =>
    simp only [Bool.false_eq_true, if_false, Prod.mk.injEq, and_true] at h
    subst h
    have := SubCross.extend_short roots n e is Sub.fresh (fun l hl => by cases hl)
    rwa [hx] at this

theorem create_arcn (e x y r a1 a2 : ℝ) (np : NP) (h : createnormpath roots (some e) n (.arcn x y r a1 a2) = .ok np) :
    ∃ p, PathNear e p np ⟨arcpoint x y r a2, arcpoint x y r a1⟩ ∧ Same e p (arcpoint x y r a1) := by
  simp only [createnormpath] at h
  cases hl : lift (Sub.make roots (some e) n ((arctobezierpath x y r a2 a1).map .curve) false) with
  | error err => rw [hl] at h; cases h
  | ok s =>
    rw [hl] at h
    simp only at h
    have hm := (lift_ok _ _).mp hl
    have hE := make_ends roots n e _ s (arcpoint x y r a2) (fun i hi => by
      cases hl : arctobezierpath x y r a2 a1 with
      | nil => rw [hl] at hi; cases hi
      | cons d ds =>
        rw [hl] at hi
        simp only [List.map_cons, List.head?_cons, Option.some.injEq] at hi
        rw [← hi]
        exact arctobezierpath_head x y r a2 a1 d ds hl) hm
    rw [List.getLast?_map, Option.map_map, show Item.end_ ∘ Item.curve = Curve.end_ from rfl, arctobezierpath_last] at hE
    have hS := make_short roots n e _ s hm
    have hO := make_open roots n e _ s hm
    have hI : Sub.Inv (some e) Eq s := by
      have := Sub.make_good roots (some e) (R := Eq) (fun _ => rfl) n ((arctobezierpath x y r a2 a1).map .curve) false
        (Or.inr (List.isChain_map_of_isChain Item.curve (fun _ _ h => h) (arcchain x y r a2 a1)))
      rwa [hm] at this
    cases hr : lift (Sub.reversed roots (some e) n s) with
    | error err => rw [hr] at h; cases h
    | ok s' =>
      rw [hr] at h
      simp only [Except.map, Except.ok.injEq] at h
      subst h
      have hm' := (lift_ok _ _).mp hr
      unfold Sub.reversed at hm'
      rw [hO] at hm'
      have hO' := make_open roots n e _ s' hm'
      cases hit : s.items with
      | nil =>
        have hE' := make_ends roots n e _ s' (arcpoint x y r a2) (fun i hi => by rw [hit] at hi; cases hi) hm'
        rw [hit] at hE'
        have hsame : Same e (arcpoint x y r a2) (arcpoint x y r a1) := by
          rcases hE.2 with ⟨_, _, h3⟩ | ⟨h1, h2⟩
          · exact Or.inl h3.symm
          · unfold Sub.begin_ at h1
            unfold Sub.end_ at h2
            rw [hit] at h1
            cases hk : s.skipped with
            | none => rw [hk] at h1; cases h1
            | some l =>
              rw [hk] at h1 h2
              simp only [Option.some.injEq] at h1 h2
              have := hS l hk
              rw [h1, h2] at this
              exact Or.inr this
        exact ⟨arcpoint x y r a2, ⟨[], s', _, rfl, hE', fun _ => rfl, fun h => absurd (hO'.symm.trans h) (by decide), Same.rfl', hsame, fun _ => rfl,
          fun h hh => by cases hh⟩, hsame⟩
      | cons first rest =>
        obtain ⟨last, hlast⟩ : ∃ last, s.items.getLast? = some last := by rw [hit]; exact ⟨_, List.getLast?_cons⟩
        have hE' := make_ends roots n e _ s' last.end_ (fun i hi => by
          rw [List.head?_map, List.head?_reverse, hlast] at hi
          simp only [Option.map_some, Option.some.injEq] at hi
          rw [← hi]
          cases last <;> rfl) hm'
        have hb : first.begin_ = arcpoint x y r a2 := by
          rcases hE.2 with ⟨h1, _, _⟩ | ⟨h1, _⟩
          · unfold Sub.begin_ at h1; rw [hit] at h1; cases h1
          · unfold Sub.begin_ at h1; rw [hit] at h1; exact Option.some.inj h1
        have he : (((s.items.reverse.map Item.reversed).getLast?.map Item.end_).getD last.end_) = arcpoint x y r a2 := by
          rw [List.getLast?_map, List.getLast?_reverse, hit]
          simp only [List.head?_cons, Option.map_some, Option.getD_some]
          rw [← hb]
          cases first <;> rfl
        rw [he] at hE'
        have hsame : Same e last.end_ (arcpoint x y r a1) := by
          rcases hE.2 with ⟨h1, _, _⟩ | ⟨_, h2⟩
          · unfold Sub.begin_ at h1; rw [hit] at h1; cases h1
          · unfold Sub.end_ at h2
            cases hk : s.skipped with
            | none =>
              rw [hk, hlast] at h2
              exact Or.inl (Option.some.inj h2)
            | some l =>
              rw [hk] at h2
              simp only [Option.some.injEq] at h2
              have := hS l hk
              rw [← hI.skip l last hk hlast, h2] at this
              exact Or.inr this
        exact ⟨last.end_, ⟨[], s', _, rfl, hE', fun _ => rfl, fun h => absurd (hO'.symm.trans h) (by decide), Same.rfl', hsame, fun _ => rfl,
          fun h hh => by cases hh⟩, hsame⟩

theorem create_near (e : ℝ) (i : PItem) (np : NP) (c : Ctx) (h : createnormpath roots (some e) n i = .ok np) (hc : createcontext i = .ok c) :
    ∃ p, PathNear e p np c ∧ firstPoint i = some c.first ∧ Same e p c.first := by
  cases hi : isArcn i with
  | true =>
    cases i <;> simp only [isArcn, Bool.false_eq_true] at hi
    case arcn x y r a1 a2 =>
      simp only [createcontext, Except.ok.injEq] at hc
      subst hc
      obtain ⟨p, h1, h2⟩ := create_arcn roots n e x y r a1 a2 np h
      exact ⟨p, h1, rfl, h2⟩
  | false =>
    obtain ⟨⟨pre, s, h1, h2, h3, h4⟩, h5⟩ := create_ends roots n e i np c hi h hc
    have hcl : s.closed = true → c.cur = c.first := by
      intro hcl
      obtain ⟨_, first, last, h5, h6, h7⟩ := h2.1.closed hcl
      rcases h2.2 with ⟨_, _, h8⟩ | ⟨h8, h9⟩
      · exact h8
      · rw [Sub.begin_items s (by intro h; rw [h] at h5; cases h5), h5] at h8
        unfold Sub.end_ at h9
        rw [(h2.1.closed hcl).1, h6] at h9
        simp only [Option.map_some, Option.some.injEq] at h8 h9
        rw [← h9, ← h8, h7]
    exact ⟨c.first, ⟨pre, s, c, h1, h2, fun _ => rfl, hcl, Same.rfl', Same.rfl', h3, h4⟩, h5, Same.rfl'⟩

/-! ## C96 -/

/-- **C96 (ends of all paths).** The point reported as the end of any path is the current point after drawing it, or closer to it than epsilon. -/
theorem atEnd_near (A : Arcs) (hA : ArctEnds A) (e : ℝ) (is : List PItem) (q : Pt) (h : atEnd roots (some e) n is = .ok q) :
    ∃ s, runPS A (outputPS is) = .pen s ∧ Same e q s.cur := by
  unfold atEnd at h
  cases is with
  | nil => simp [normpath] at h
  | cons i is =>
    simp only [normpath] at h
    cases hb : createnormpath roots (some e) n i with
    | error err => rw [hb] at h; cases h
    | ok np =>
      rw [hb] at h
      cases hc : createcontext i with
      | error err => rw [hc] at h; cases h
      | ok c =>
        rw [hc] at h
        simp only at h
        cases hl : normLoop roots (some e) n np c is with
        | error err => rw [hl] at h; cases h
        | ok np' =>
          rw [hl] at h
          simp only at h
          obtain ⟨p, g1, _⟩ := create_near roots n e i np c hb hc
          obtain ⟨c', d1, s, d2, d3, _⟩ := loop_near roots n A hA e _ is np np' c _ (knows_create A i c hc) g1 hl
          obtain ⟨pre, s', d, e1, e2, _, _, e5, _⟩ := d1
          rw [e1] at h
          simp only [List.getLast?_append, List.getLast?_singleton, Option.some_or, Option.bind_some] at h
          refine ⟨s, by simpa only [runPS, outputPS, List.flatMap_cons, List.foldl_append] using d2, ?_⟩
          rcases e2.2 with ⟨_, e3, _⟩ | ⟨_, e3⟩
          · rw [e3] at h; cases h
          · rw [e3] at h
            simp only [Except.ok.injEq] at h
            rw [d3, ← h]
            exact e5

/-- **C96 (begins of all paths).** The point reported as the begin of any path is its first point, or closer to it than epsilon. -/
theorem atBegin_near (e : ℝ) (i : PItem) (is : List PItem) (q : Pt) (h : atBegin roots (some e) n (i :: is) = .ok q) :
    ∃ p, firstPoint i = some p ∧ Same e q p := by
  unfold atBegin at h
  simp only [normpath] at h
  cases hb : createnormpath roots (some e) n i with
  | error err => rw [hb] at h; cases h
  | ok np =>
    rw [hb] at h
    cases hc : createcontext i with
    | error err => rw [hc] at h; cases h
    | ok c =>
      rw [hc] at h
      simp only at h
      cases hl : normLoop roots (some e) n np c is with
      | error err => rw [hl] at h; cases h
      | ok np' =>
        rw [hl] at h
        simp only at h
        obtain ⟨p, g1, g2, g3⟩ := create_near roots n e i np c hb hc
        obtain ⟨c', ⟨pre, s', d, e1, e2, _, _, _, _, e3, e4⟩, _⟩ := loop_near roots n ⟨arctobezierpath, arcnCurves, arctOf⟩ arctEnds_example e _ is np np' c _
          (knows_create ⟨arctobezierpath, arcnCurves, arctOf⟩ i c hc) g1 hl
        refine ⟨c.first, g2, ?_⟩
        have hq : q = p := by
          rw [e1] at h
          cases pre with
          | nil =>
            simp only [List.nil_append, List.head?_cons, Option.bind_some] at h
            rcases e2.2 with ⟨e5, _⟩ | ⟨e5, _⟩
            · rw [e5] at h; cases h
            · rw [e5] at h
              simp only [Except.ok.injEq] at h
              rw [← e3 rfl, h]
          | cons a pre =>
            simp only [List.cons_append, List.head?_cons, Option.bind_some] at h
            rcases e4 a rfl with e5 | e5
            · rw [e5] at h; cases h
            · rw [e5] at h
              simp only [Except.ok.injEq] at h
              rw [h]
        rw [hq]
        exact g3

/-! ## The begin is not always exact -/

/-- All coordinates of a curve are at most `M`. -/
def Bounded (M : ℝ) (c : Curve ℝ) : Prop :=
  |c.x0| ≤ M ∧ |c.y0| ≤ M ∧ |c.x1| ≤ M ∧ |c.y1| ≤ M ∧ |c.x2| ≤ M ∧ |c.y2| ≤ M ∧ |c.x3| ≤ M ∧ |c.y3| ≤ M

theorem hypot_small {M a b c d : ℝ} (ha : |a| ≤ M) (hb : |b| ≤ M) (hc : |c| ≤ M) (hd : |d| ≤ M) : hypot (a - b) (c - d) ≤ 4 * M := by
  have hM : 0 ≤ M := (abs_nonneg a).trans ha
  unfold hypot
  rw [Real.sqrt_le_left (by linarith)]
  rw [abs_le] at ha hb hc hd
  nlinarith [ha.1, ha.2, hb.1, hb.2, hc.1, hc.2, hd.1, hd.2]

theorem not_long (e M : ℝ) (he : 12 * M < e) (hM : 0 ≤ M) (c : Curve ℝ) (h : Bounded M c) : ¬ Sub.long e c := by
  obtain ⟨h0, g0, h1, g1, h2, g2, h3, g3⟩ := h
  unfold Sub.long
  rintro (h | ⟨h | h, _⟩)
  · linarith [hypot_small h3 h0 g3 g0]
  · linarith [hypot_small h1 h0 g1 g0]
  · linarith [hypot_small h2 h0 g2 g0]

theorem skip_all (e M : ℝ) (he : 12 * M < e) (hM : 0 ≤ M) (cs : List (Curve ℝ)) (hc : ∀ c ∈ cs, Bounded M c) (s : Sub) (hi : s.items = []) (ho : s.closed = false)
    (hs : ∀ l, s.skipped = some l → |l.x0| ≤ M ∧ |l.y0| ≤ M ∧ |l.x1| ≤ M ∧ |l.y1| ≤ M) :
    ∃ s', Sub.extend roots (some e) (n + 1) s (cs.map .curve) = (s', none) ∧ s'.items = [] ∧ s'.closed = false := by
  induction cs generalizing s with
  | nil => exact ⟨s, rfl, hi, ho⟩
  | cons c cs ih =>
    have hb := hc c List.mem_cons_self
    have hm : s.matches_ e (.curve c) := by
      intro p hp
      obtain ⟨h0, g0, _⟩ := hb
      unfold Sub.end_ at hp
      cases hk : s.skipped with
      | none => rw [hk, hi] at hp; cases hp
      | some l =>
        rw [hk] at hp
        simp only [Option.some.injEq] at hp
        obtain ⟨_, _, l3, l4⟩ := hs l hk
        rw [← hp]
        have := hypot_small l3 h0 l4 g0
        exact lt_of_le_of_lt this (by linarith)
    obtain ⟨d, hd, hdb⟩ : ∃ d, s.adjusted (.curve c) = .curve d ∧ Bounded M d := by
      unfold Sub.adjusted
      cases hk : s.skipped with
      | none => exact ⟨c, rfl, hb⟩
      | some l =>
        obtain ⟨l1, l2, _⟩ := hs l hk
        exact ⟨_, rfl, l1, l2, hb.2.2⟩
    have ha : Sub.append roots (some e) (n + 1) s (.curve c) = (s.skip ⟨d.x0, d.y0, d.x3, d.y3⟩, none) := by
      unfold Sub.append
      simp only [hm, not_true_eq_false, if_false, ho, Bool.false_eq_true, hd]
      rw [if_neg (not_long e M he hM d hdb)]
    obtain ⟨s', e1, e2⟩ := ih (fun c hc' => hc c (List.mem_cons_of_mem _ hc')) (s.skip ⟨d.x0, d.y0, d.x3, d.y3⟩) hi ho
      (fun l hl => by
        simp only [Sub.skip, Option.some.injEq] at hl
        rw [← hl]
        exact ⟨hdb.1, hdb.2.1, hdb.2.2.2.2.2.2.1, hdb.2.2.2.2.2.2.2⟩)
    refine ⟨s', ?_, e2⟩
    unfold Sub.extend at e1 ⊢
    rw [List.map_cons, Sub.extendWith, ha]
    exact e1

theorem bounded_all (cs : List (Curve ℝ)) : ∃ M, 0 ≤ M ∧ ∀ c ∈ cs, Bounded M c := by
  induction cs with
  | nil => exact ⟨0, le_rfl, fun c hc => by cases hc⟩
  | cons c cs ih =>
    obtain ⟨M, h1, h2⟩ := ih
    refine ⟨M + |c.x0| + |c.y0| + |c.x1| + |c.y1| + |c.x2| + |c.y2| + |c.x3| + |c.y3|, by positivity, fun d hd => ?_⟩
    have p0 := abs_nonneg c.x0
    have p1 := abs_nonneg c.y0
    have p2 := abs_nonneg c.x1
    have p3 := abs_nonneg c.y1
    have p4 := abs_nonneg c.x2
    have p5 := abs_nonneg c.y2
    have p6 := abs_nonneg c.x3
    have p7 := abs_nonneg c.y3
    rcases List.mem_cons.mp hd with rfl | hd
    · refine ⟨?_, ?_, ?_, ?_, ?_, ?_, ?_, ?_⟩ <;> linarith
    · obtain ⟨g0, g1, g2, g3, g4, g5, g6, g7⟩ := h2 d hd
      refine ⟨?_, ?_, ?_, ?_, ?_, ?_, ?_, ?_⟩ <;> linarith

/-- A clockwise arc from (0, 1) to (1, 0) which is short for the epsilon, followed by a line: the path is said to begin at (1, 0). -/
theorem begin_moved : ∃ (e : ℝ) (q : Pt), 0 < e ∧ firstPoint (.arcn 0 0 1 90 0) = some (0, 1) ∧
    atBegin roots (some e) (n + 1) [.arcn 0 0 1 90 0, .lineto q] = .ok (1, 0) := by
  obtain ⟨M, hM, hb⟩ := bounded_all (arctobezierpath 0 0 1 0 90)
  have p0 : arcpoint 0 0 1 0 = (1, 0) := by simp [arcpoint, radians]
  have p1 : arcpoint 0 0 1 90 = (0, 1) := by
    have : radians 90 = π / 2 := by unfold radians; ring
    simp [arcpoint, this]
  obtain ⟨s, h1, h2, h3⟩ := skip_all roots n (12 * M + 1) M (by linarith) hM _ hb Sub.fresh rfl rfl (fun l hl => by cases hl)
  refine ⟨12 * M + 1, (12 * M + 2, 0), by linarith, by rw [firstPoint, p1], ?_⟩
  have hm : Sub.make roots (some (12 * M + 1)) (n + 1) ((arctobezierpath 0 0 1 0 90).map .curve) false = (s, none) := by
    unfold Sub.make
    rw [h1]
    rfl
  have hr : Sub.reversed roots (some (12 * M + 1)) (n + 1) s = (Sub.fresh, none) := by
    unfold Sub.reversed
    rw [h2, h3]
    rfl
  have hl : hypot (12 * M + 2 - 1) (0 - 0) ≥ 12 * M + 1 := by
    unfold hypot
    apply Real.le_sqrt_of_sq_le
    nlinarith
  have ha : Sub.append roots (some (12 * M + 1)) (n + 1) Sub.fresh (lineItem (1, 0) (12 * M + 2, 0)) = (Sub.push Sub.fresh (lineItem (1, 0) (12 * M + 2, 0)), none) := by
    unfold Sub.append
    dsimp only
    rw [if_neg (by simp [Sub.matches_, Sub.end_, Sub.fresh]), if_neg (by simp [Sub.fresh])]
    change (if hypot (12 * M + 2 - 1) (0 - 0) ≥ 12 * M + 1 then _ else _) = _
    rw [if_pos hl]
    rfl
  simp only [atBegin, normpath, createnormpath, createcontext, normLoop, expand, updatenormpaths, updatenormpath, hm, lift, hr, Except.map, p0, onLast,
    List.getLast?_singleton, ha, List.dropLast_singleton, List.nil_append, List.head?_cons, Option.bind_some]
  rfl

end

end PyX.Path
