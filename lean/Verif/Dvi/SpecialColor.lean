import Verif.Dvi.SpecialProps

/-!
# The numbers in colors given by `pyxcolor`, and included EPS files

`Plain` and `Expo` are the spelling of numbers; what a user expects is that `rgb(a,b,c)` is the color of the numbers spelled by `a`, `b`, `c`.
-/

set_option linter.unusedSectionVars false
set_option linter.unusedSimpArgs false

namespace PyX.Dvi.Special

noncomputable section

open PyX.Afm (Tok join words words_join)

/-- Plain decimal numbers: `12`, `1.5`, `.5`, `1.` -/
def Plain (m : Str) : Prop :=
  (∃ ds, ds ≠ [] ∧ (∀ c ∈ ds, c.isDigit = true) ∧ m = ds) ∨
  (∃ ds fs, (ds ≠ [] ∨ fs ≠ []) ∧ (∀ c ∈ ds, c.isDigit = true) ∧ (∀ c ∈ fs, c.isDigit = true) ∧ m = ds ++ '.' :: fs)

/-- Exponents with a sign, `e-3`, or none. -/
def Expo (e : Str) : Prop :=
  e = [] ∨ ∃ c s ds, (c = 'e' ∨ c = 'E') ∧ (s = '+' ∨ s = '-') ∧ ds ≠ [] ∧ (∀ c ∈ ds, c.isDigit = true) ∧ e = c :: s :: ds

/-- What can follow a number so that it ends there. -/
def Ends (r : Str) : Prop := ∀ c, r.head? = some c → c.isDigit = false ∧ c ≠ '.'

theorem takeWhile_digits {ds r : Str} (h : ∀ c ∈ ds, c.isDigit = true) (hr : ∀ c, r.head? = some c → c.isDigit = false) :
    (ds ++ r).takeWhile Char.isDigit = ds ∧ (ds ++ r).dropWhile Char.isDigit = r := by
  induction ds with
  | nil =>
    cases r with
    | nil => exact ⟨rfl, rfl⟩
    | cons c r =>
      have := hr c rfl
      simp [List.takeWhile, List.dropWhile, this]
  | cons c ds ih =>
    have hc := h c (by simp)
    obtain ⟨h1, h2⟩ := ih (fun c hc => h c (by simp [hc]))
    simp [List.takeWhile, List.dropWhile, hc, h1, h2]

theorem mantissa_plain {m r : Str} (hm : Plain m) (hr : Ends r) : mantissa (m ++ r) = some (m, r) := by
  rcases hm with ⟨ds, h0, hd, rfl⟩ | ⟨ds, fs, h0, hd, hf, rfl⟩
  · obtain ⟨h1, h2⟩ := takeWhile_digits hd (fun c hc => (hr c hc).1)
    unfold mantissa
    dsimp only
    rw [h1, h2]
    match r, hr with
    | [], _ => simp [h0]
    | c :: r, hr =>
      have hc := (hr c rfl).2
      split
      · rename_i heq; injection heq with e1 e2; exact absurd e1 hc
      · simp [h0]
  · obtain ⟨h1, h2⟩ := takeWhile_digits (r := '.' :: (fs ++ r)) hd (by intro c hc; simp at hc; subst hc; decide)
    obtain ⟨h3, h4⟩ := takeWhile_digits (r := r) hf (fun c hc => (hr c hc).1)
    unfold mantissa
    dsimp only
    rw [List.append_assoc, List.cons_append, h1, h2]
    simp only [h3, h4]
    rw [if_neg (by rintro ⟨a, b⟩; rcases h0 with h | h <;> contradiction)]

theorem dropSign_plain {m r : Str} (hm : Plain m) : dropSign (m ++ r) = m ++ r := by
  have key : ∀ c s, (c.isDigit = true ∨ c = '.') → dropSign (c :: s) = c :: s := by
    intro c s hc
    rw [dropSign, if_neg]
    rintro (rfl | rfl) <;> rcases hc with h | h <;> revert h <;> decide
  rcases hm with ⟨ds, h0, hd, rfl⟩ | ⟨ds, fs, h0, hd, hf, rfl⟩
  · match m, h0, hd with
    | c :: ds, _, hd => exact key c _ (Or.inl (hd c (by simp)))
  · match ds, hd with
    | [], _ => exact key '.' _ (Or.inr rfl)
    | c :: ds, hd => exact key c _ (Or.inl (hd c (by simp)))

theorem plain_ne_nil {m : Str} (hm : Plain m) : m ≠ [] := by
  rcases hm with ⟨ds, h0, hd, rfl⟩ | ⟨ds, fs, h0, hd, hf, rfl⟩
  · exact h0
  · simp

theorem dropExp_expo {e : Str} {c : Char} {r : Str} (he : Expo e) (hc : c = ',' ∨ c = ')') : dropExp (e ++ c :: r) = c :: r := by
  rcases he with rfl | ⟨e, s, ds, h1, h2, h3, h4, rfl⟩
  · rw [List.nil_append]
    cases r with
    | nil => rfl
    | cons d r =>
      unfold dropExp
      dsimp only
      rw [if_neg]
      rintro ⟨h, -⟩
      rcases hc with rfl | rfl <;> rcases h with h | h <;> revert h <;> decide
  · obtain ⟨t1, t2⟩ := takeWhile_digits (r := c :: r) h4 (by intro d hd; simp at hd; subst hd; rcases hc with rfl | rfl <;> decide)
    unfold dropExp
    simp only [List.cons_append]
    rw [t1, t2, if_pos ⟨h1, h2, h3⟩]

theorem ends_expo {e : Str} {c : Char} {r : Str} (he : Expo e) (hc : c = ',' ∨ c = ')') : Ends (e ++ c :: r) := by
  intro d hd
  rcases he with rfl | ⟨e, s, ds, h1, h2, h3, h4, rfl⟩
  · simp at hd; subst hd; rcases hc with rfl | rfl <;> decide
  · simp at hd; subst hd; rcases h1 with rfl | rfl <;> decide

theorem mantissa_sep {c : Char} {s : Str} (hc : c = ',' ∨ c = ')' ∨ c = '(') : mantissa (dropSign (c :: s)) = none := by
  have h1 : dropSign (c :: s) = c :: s := by
    rw [dropSign, if_neg]
    rintro (h | h) <;> rcases hc with rfl | rfl | rfl <;> revert h <;> decide
  rw [h1]
  rcases hc with rfl | rfl | rfl <;> rfl

/-- Numbers with commas between them and a parenthesis at the end. -/
def spelled : List (Str × Str) → Str
  | [] => [')']
  | [n] => n.1 ++ n.2 ++ [')']
  | n :: m :: l => n.1 ++ n.2 ++ ',' :: spelled (m :: l)

theorem findall_number {m e : Str} {c : Char} {r : Str} (hm : Plain m) (he : Expo e) (hc : c = ',' ∨ c = ')') (n : ℕ) :
    findall (n + 1) (m ++ e ++ c :: r) = m :: findall n (c :: r) := by
  have hx : findall (n + 1) (m ++ (e ++ c :: r)) = match mantissa (dropSign (m ++ (e ++ c :: r))) with
      | some (m, r) => m :: findall n (dropExp r)
      | none => findall n (m ++ (e ++ c :: r)).tail := by
    match m, plain_ne_nil hm with
    | d :: m, _ => rfl
  rw [List.append_assoc, hx, dropSign_plain hm, mantissa_plain hm (ends_expo he hc)]
  dsimp only
  rw [dropExp_expo he hc]

theorem findall_sep {c : Char} {s : Str} (hc : c = ',' ∨ c = ')' ∨ c = '(') (n : ℕ) : findall (n + 1) (c :: s) = findall n s := by
  rw [findall, mantissa_sep hc]

theorem findall_nil (n : ℕ) : findall n [] = [] := by cases n <;> rfl

theorem findall_spelled : ∀ (l : List (Str × Str)) (n : ℕ), (∀ p ∈ l, Plain p.1 ∧ Expo p.2) → (spelled l).length ≤ n → findall n (spelled l) = l.map Prod.fst
  | [], n, _, hn => by
    match n, hn with
    | n + 1, _ => rw [spelled, findall_sep (by simp), findall_nil]; rfl
  | [p], n, h, hn => by
    obtain ⟨hm, he⟩ := h p (by simp)
    have h0 : 0 < p.1.length := List.length_pos_iff.mpr (plain_ne_nil hm)
    rw [spelled, List.length_append, List.length_append, List.length_singleton] at hn
    obtain ⟨k, rfl⟩ : ∃ k, n = k + 1 + 1 := ⟨n - 2, by omega⟩
    rw [spelled, findall_number hm he (Or.inr rfl), findall_sep (by simp), findall_nil]; rfl
  | p :: q :: l, n, h, hn => by
    obtain ⟨hm, he⟩ := h p (by simp)
    have h0 : 0 < p.1.length := List.length_pos_iff.mpr (plain_ne_nil hm)
    rw [spelled, List.length_append, List.length_append, List.length_cons] at hn
    obtain ⟨k, rfl⟩ : ∃ k, n = k + 1 + 1 := ⟨n - 2, by omega⟩
    rw [spelled, findall_number hm he (Or.inl rfl), findall_sep (by simp), findall_spelled (q :: l) k (fun x hx => h x (by simp [hx])) (by omega)]
    rfl

/-- The names of the models which can be written. -/
def modelName : Model → Str
  | .gray => "gray".toList
  | .rgb => "rgb".toList
  | .hsb => "hsb".toList
  | .cmyk => "cmyk".toList

theorem pyxcolor_spelled (E : Env) (m : Model) (l : List (Str × Str)) (h : ∀ p ∈ l, Plain p.1 ∧ Expo p.2) :
    pyxcolor E (modelName m ++ '(' :: spelled l) = ((l.map Prod.fst).mapM E.flt).bind (mkCol m) := by
  have hf : findall ((spelled l).length + 1) ('(' :: spelled l) = l.map Prod.fst := by
    rw [findall_sep (by simp), findall_spelled l _ h le_rfl]
  cases m <;> (rw [← hf]; rfl)

/-- **C154.** With plain decimal numbers `pyxcolor` gives the color of these numbers. -/
theorem pyxcolor_numbers (E : Env) (m : Model) (l : List Str) (h : ∀ p ∈ l, Plain p) :
    pyxcolor E (modelName m ++ '(' :: spelled (l.map fun p => (p, []))) = (l.mapM E.flt).bind (mkCol m) := by
  rw [pyxcolor_spelled E m _ (by
    intro p hp
    obtain ⟨q, hq, rfl⟩ := List.mem_map.mp hp
    exact ⟨h q hq, Or.inl rfl⟩), List.map_map]
  congr
  simp [Function.comp_def]

/-- **C154, violated.** Exponents are read and forgotten: whatever the exponents are, the color is that of the numbers without them. -/
theorem pyxcolor_exponents_lost (E : Env) (m : Model) (l l' : List (Str × Str)) (h : ∀ p ∈ l, Plain p.1 ∧ Expo p.2) (h' : ∀ p ∈ l', Plain p.1 ∧ Expo p.2)
    (hl : l.map Prod.fst = l'.map Prod.fst) : pyxcolor E (modelName m ++ '(' :: spelled l) = pyxcolor E (modelName m ++ '(' :: spelled l') := by
  rw [pyxcolor_spelled E m l h, pyxcolor_spelled E m l' h', hl]

/-- The case: a gray of `5e-1` is asked for and `float('5')` is taken, which is refused as there is no such gray. -/
theorem pyxcolor_exponent (E : Env) (h5 : E.flt "5".toList = some 5) (he : E.flt "5e-1".toList = some (1 / 2)) :
    pyxcolor E "gray(5e-1)".toList = none ∧ ((E.flt "5e-1".toList).bind Color.mkGray).isSome := by
  refine ⟨?_, ?_⟩
  · have hl : "gray(5e-1)".toList = modelName .gray ++ '(' :: spelled [("5".toList, "e-1".toList)] := by decide +kernel
    rw [hl, pyxcolor_spelled E .gray _ (by
      intro p hp
      rw [List.mem_singleton] at hp
      subst hp
      exact ⟨Or.inl ⟨"5".toList, by decide, by decide, rfl⟩, Or.inr ⟨'e', '-', "1".toList, by decide, by decide, by decide, by decide, rfl⟩⟩)]
    simp only [List.map, List.mapM_cons, List.mapM_nil, h5]
    simp [mkCol, Color.mkGray, Color.inRange]
  · rw [he, Option.bind_some]
    simp [Color.mkGray, Color.inRange]
    norm_num

/-! ## Included EPS files -/

theorem epsinclude_bad {E : Env} {args : List Str} {x y : ℝ} {a : Str} (ha : a ∈ args) (h : assign a = none) : epsinclude E args x y = none := by
  have : args.mapM assign = none := by
    induction args with
    | nil => simp at ha
    | cons b args ih =>
      rw [List.mapM_cons]
      rcases List.mem_cons.mp ha with rfl | ha
      · rw [h]; rfl
      · rw [ih ha]; cases assign b <;> rfl
  unfold epsinclude
  rw [this]
  rfl

theorem assign_eq {n v : Str} (hn : '=' ∉ n) (hv : '=' ∉ v) : assign (n ++ '=' :: v) = some (n, v) := by
  have key : ∀ n : Str, '=' ∉ n → (n ++ '=' :: v).takeWhile (fun c => c ≠ '=') = n ∧ (n ++ '=' :: v).dropWhile (fun c => c ≠ '=') = '=' :: v := by
    intro n hn
    induction n with
    | nil => simp
    | cons c n ih =>
      have hc : c ≠ '=' := by rintro rfl; simp at hn
      obtain ⟨h1, h2⟩ := ih (by simp at hn; exact hn.2)
      simp only [ne_eq, decide_not] at h1 h2
      simp [hc, h1, h2]
  obtain ⟨h1, h2⟩ := key n hn
  unfold assign
  rw [h1, h2]
  dsimp only
  rw [if_neg hv]

theorem assign_twice {n v : Str} (hn : '=' ∉ n) (hv : '=' ∈ v) : assign (n ++ '=' :: v) = none := by
  have key : ∀ n : Str, '=' ∉ n → (n ++ '=' :: v).dropWhile (fun c => c ≠ '=') = '=' :: v := by
    intro n hn
    induction n with
    | nil => simp
    | cons c n ih =>
      have hc : c ≠ '=' := by rintro rfl; simp at hn
      have h2 := ih (by simp at hn; exact hn.2)
      simp only [ne_eq, decide_not] at h2
      simp [hc, h2]
  unfold assign
  rw [key n hn]
  dsimp only
  rw [if_pos hv]

/-- **C154.** `\\includegraphics` includes the file named, with its bounding box, at the current point. -/
theorem special_eps (E : Env) (x y : ℝ) (F a b c d : Str) (hF : '=' ∉ F) (ha : '=' ∉ a) (hb : '=' ∉ b) (hc : '=' ∉ c) (hd : '=' ∉ d) (ra rb rc rd : ℝ)
    (ea : E.flt a = some ra) (eb : E.flt b = some rb) (ec : E.flt c = some rc) (ed : E.flt d = some rd)
    (s : Str) (hs : words s = ["epsinclude".toList, "file".toList ++ '=' :: F, "llx".toList ++ '=' :: a, "lly".toList ++ '=' :: b, "urx".toList ++ '=' :: c, "ury".toList ++ '=' :: d]) :
    parse E s x y = some (.elem (.eps ⟨F, ra, rb, rc, rd, none, none, none, x, y⟩)) := by
  have g0 : get commands "epsinclude".toList = some .epsinclude := by decide +kernel
  unfold parse
  rw [hs]
  simp only [g0]
  unfold epsinclude
  rw [List.mapM_cons, List.mapM_cons, List.mapM_cons, List.mapM_cons, List.mapM_cons, List.mapM_nil, assign_eq (by decide) hF, assign_eq (by decide) ha, assign_eq (by decide) hb,
    assign_eq (by decide) hc, assign_eq (by decide) hd]
  have k1 : get [("ury".toList, d), ("urx".toList, c), ("lly".toList, b), ("llx".toList, a), ("file".toList, F)] "file".toList = some F := rfl
  have k2 : get [("ury".toList, d), ("urx".toList, c), ("lly".toList, b), ("llx".toList, a), ("file".toList, F)] "llx".toList = some a := rfl
  have k3 : get [("ury".toList, d), ("urx".toList, c), ("lly".toList, b), ("llx".toList, a), ("file".toList, F)] "lly".toList = some b := rfl
  have k4 : get [("ury".toList, d), ("urx".toList, c), ("lly".toList, b), ("llx".toList, a), ("file".toList, F)] "urx".toList = some c := rfl
  have k5 : get [("ury".toList, d), ("urx".toList, c), ("lly".toList, b), ("llx".toList, a), ("file".toList, F)] "ury".toList = some d := rfl
  have k6 : get [("ury".toList, d), ("urx".toList, c), ("lly".toList, b), ("llx".toList, a), ("file".toList, F)] "width".toList = none := rfl
  have k7 : get [("ury".toList, d), ("urx".toList, c), ("lly".toList, b), ("llx".toList, a), ("file".toList, F)] "height".toList = none := rfl
  have k8 : get [("ury".toList, d), ("urx".toList, c), ("lly".toList, b), ("llx".toList, a), ("file".toList, F)] "clip".toList = none := rfl
  simp only [bind, pure, Option.bind_some, List.reverse_cons, List.reverse_nil, List.nil_append, List.cons_append, k1, k2, k3, k4, k5, optional, k6, k7, k8, ea, eb, ec, ed, Option.map_some]

/-- **C154, violated.** A file whose name contains a blank or an equals sign cannot be included: any word without an equals sign and any with two ends the run with an error. -/
theorem eps_name_refused (E : Env) (x y : ℝ) (s : Str) (rest : List Str) :
    (∀ F G : Str, '=' ∉ G → words s = "epsinclude".toList :: ("file".toList ++ '=' :: F) :: G :: rest → parse E s x y = none) ∧
    (∀ F : Str, '=' ∈ F → words s = "epsinclude".toList :: ("file".toList ++ '=' :: F) :: rest → parse E s x y = none) := by
  have g0 : get commands "epsinclude".toList = some .epsinclude := by decide +kernel
  refine ⟨fun F G hG hw => ?_, fun F hF hw => ?_⟩
  · have hn : assign G = none := by
      have : G.dropWhile (fun c => c ≠ '=') = [] := by
        clear hw
        induction G with
        | nil => rfl
        | cons c G ih =>
          have hc : c ≠ '=' := by rintro rfl; simp at hG
          have h2 := ih (by simp at hG; exact hG.2)
          simp only [ne_eq, decide_not] at h2
          simp [hc, h2]
      unfold assign
      rw [this]
    unfold parse
    rw [hw]
    simp only [g0]
    rw [epsinclude_bad (a := G) (by simp) hn]
    rfl
  · unfold parse
    rw [hw]
    simp only [g0]
    rw [epsinclude_bad (a := "file".toList ++ '=' :: F) (by simp) (assign_twice (by decide) hF)]
    rfl

/-- A file `my fig.eps`. -/
example (E : Env) : parse E "epsinclude file=my fig.eps llx=0 lly=0 urx=1 ury=1 ".toList 0 0 = none := by
  refine (eps_name_refused E 0 0 _ ["llx=0".toList, "lly=0".toList, "urx=1".toList, "ury=1".toList]).1 "my".toList "fig.eps".toList ?_ ?_ <;> decide +kernel

/-! ## A page -/

/-- A group turned by a quarter around `(1, 2)` with a rule and a marker in it, and a rule after it. -/
def exPage : List In :=
  [.begin_ (.trafo ⟨0, -1, 1, 0, 3, 1⟩), .elem (.rule 0 0 1 1), .marker "m".toList (2, 2), .end_, .elem (.rule 5 5 1 1)]

theorem ex_page : ∃ f, run exPage = some f ∧
    leavesL [] f.items = [(.rule 0 0 1 1, [.trafo ⟨0, -1, 1, 0, 3, 1⟩]), (.rule 5 5 1 1, [])] ∧ f.marks "m".toList = some (1, 3) := by
  obtain ⟨f, hf⟩ := special_accepted (l := exPage) (d := 0) rfl (by simp [exPage, markers])
  refine ⟨f, hf, special_groups hf rfl, ?_⟩
  rw [special_marker hf rfl (n := "m".toList) (st := [.trafo ⟨0, -1, 1, 0, 3, 1⟩]) (p := (2, 2)) (by simp [exPage, markers]) (by simp [exPage, markers])]
  simp only [outside, Attr.toTrafo, Trafo.apply]
  norm_num

end

end PyX.Dvi.Special
