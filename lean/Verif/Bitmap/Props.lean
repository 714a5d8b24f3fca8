import Verif.Bitmap.Model
import Mathlib.Tactic.Ring
import Mathlib.Tactic.Linarith

/-!
# C63: splitting and interleaving image data
-/

set_option linter.unusedSectionVars false

namespace PyX.Bitmap

variable {α : Type*}

theorem stride_get (k : ℕ) (hk : 0 < k) (l : List α) : ∀ s j, (stride k s l)[j]? = l[s + j * k]? := by
  induction l with
  | nil => intro s j; simp [stride]
  | cons a l ih =>
    intro s j
    cases s with
    | zero =>
      cases j with
      | zero => simp [stride]
      | succ j =>
        have : 0 + (j + 1) * k = (k - 1 + j * k) + 1 := by
          have : (j + 1) * k = j * k + k := by ring
          omega
        rw [this, List.getElem?_cons_succ, ← ih]
        simp [stride]
    | succ s =>
      have : s + 1 + j * k = (s + j * k) + 1 := by omega
      rw [this, List.getElem?_cons_succ, ← ih]
      simp [stride]

/-- Lists are equal if they have the same length and the same elements. -/
theorem stride_length (k n : ℕ) (hk : 0 < k) (l : List α) (hl : l.length = k * n) (s : ℕ) (hs : s < k) : (stride k s l).length = n := by
  apply le_antisymm
  · by_contra h
    push Not at h
    have := stride_get k hk l s n
    rw [List.getElem?_eq_getElem h, List.getElem?_eq_none (by rw [hl, mul_comm]; omega)] at this
    simp at this
  · by_contra h
    push Not at h
    have := stride_get k hk l s (n - 1)
    have hn : 0 < n := by omega
    have e : (n - 1) * k + k = k * n := by
      obtain ⟨m, rfl⟩ : ∃ m, n = m + 1 := ⟨n - 1, by omega⟩
      simp only [Nat.add_sub_cancel]
      ring
    rw [List.getElem?_eq_none (by omega), List.getElem?_eq_getElem (by omega)] at this
    simp at this

/-! ## Interleaving -/

theorem heads_cons (bs : List (List α)) (n : ℕ) (h : ∀ b ∈ bs, b.length = n + 1) :
    heads bs = some (bs.filterMap (·.head?), bs.map List.tail) := by
  induction bs with
  | nil => rfl
  | cons b bs ih =>
    have hb := h b List.mem_cons_self
    cases b with
    | nil => simp at hb
    | cons a b =>
      rw [heads, ih (fun b hb => h b (List.mem_cons_of_mem _ hb))]
      simp

/-- The rows of bands of equal length. -/
theorem zipAll_get (n : ℕ) : ∀ (b : List α) (bs : List (List α)), (∀ c ∈ b :: bs, c.length = n) →
    (zipAll b bs).length = n ∧ ∀ (j : ℕ) (row : List α), (zipAll b bs)[j]? = some row → row = (b :: bs).filterMap (·[j]?) ∧ row.length = bs.length + 1 := by
  induction n with
  | zero =>
    intro b bs h
    have : b = [] := List.length_eq_zero_iff.mp (h b List.mem_cons_self)
    subst this
    exact ⟨rfl, fun j row hr => by simp [zipAll] at hr⟩
  | succ n ih =>
    intro b bs h
    have hb := h b List.mem_cons_self
    cases b with
    | nil => simp at hb
    | cons a b =>
      have hbs : ∀ c ∈ bs, c.length = n + 1 := fun c hc => h c (List.mem_cons_of_mem _ hc)
      rw [zipAll, heads_cons bs n hbs]
      simp only
      obtain ⟨h1, h2⟩ := ih b (bs.map List.tail) (by
        intro c hc
        simp only [List.mem_cons, List.mem_map] at hc
        rcases hc with rfl | ⟨c, hc, rfl⟩
        · simpa using hb
        · rw [List.length_tail, hbs c hc]; rfl)
      refine ⟨by simp [h1], fun j row hr => ?_⟩
      cases j with
      | zero =>
        simp only [List.getElem?_cons_zero, Option.some.injEq] at hr
        subst hr
        constructor
        · simp only [List.filterMap_cons, List.getElem?_cons_zero, List.head?_eq_getElem?]
        · rw [List.length_cons]
          congr 1
          have : ∀ l : List (List α), (∀ c ∈ l, c.length = n + 1) → (l.filterMap (·.head?)).length = l.length := by
            intro l
            induction l with
            | nil => intro _; rfl
            | cons c l ihl =>
              intro hl
              have hc := hl c List.mem_cons_self
              cases c with
              | nil => simp at hc
              | cons x c => simp [ihl (fun c hc => hl c (List.mem_cons_of_mem _ hc))]
          exact this bs hbs
      | succ j =>
        simp only [List.getElem?_cons_succ] at hr
        obtain ⟨g1, g2⟩ := h2 j row hr
        refine ⟨?_, by simpa using g2⟩
        rw [g1]
        simp only [List.filterMap_cons, List.getElem?_cons_succ, List.filterMap_map]
        have : (fun c : List α => c[j + 1]?) = (fun c : List α => c[j]?) ∘ List.tail := by
          funext c
          cases c with
          | nil => simp
          | cons x c => simp
        rw [this]

theorem flatten_get (m : ℕ) (rows : List (List α)) (h : ∀ r ∈ rows, r.length = m) (p c : ℕ) (hc : c < m) :
    rows.flatten[p * m + c]? = rows[p]?.bind (·[c]?) := by
  induction rows generalizing p with
  | nil => simp
  | cons r rows ih =>
    have hr := h r List.mem_cons_self
    rw [List.flatten_cons]
    cases p with
    | zero =>
      rw [List.getElem?_append_left (by omega)]
      simp
    | succ p =>
      have e : (p + 1) * m = p * m + m := by ring
      rw [List.getElem?_append_right (by omega)]
      have : (p + 1) * m + c - r.length = p * m + c := by omega
      rw [this, ih (fun r hr => h r (List.mem_cons_of_mem _ hr))]
      simp

theorem filterMap_get (bs : List (List α)) (n j c : ℕ) (h : ∀ b ∈ bs, b.length = n) (hj : j < n) :
    (bs.filterMap (·[j]?))[c]? = bs[c]?.bind (·[j]?) := by
  induction bs generalizing c with
  | nil => simp
  | cons b bs ih =>
    have hb := h b List.mem_cons_self
    rw [List.filterMap_cons, List.getElem?_eq_getElem (show j < b.length by omega)]
    simp only
    cases c with
    | zero => simp [List.getElem?_eq_getElem (show j < b.length by omega)]
    | succ c => simpa using ih c (fun b hb => h b (List.mem_cons_of_mem _ hb))

/-- Sample `c` of pixel `p` of interleaved bands is sample `p` of band `c`. -/
theorem interleave_get (bs : List (List α)) (n : ℕ) (hne : bs ≠ []) (h : ∀ b ∈ bs, b.length = n) :
    (interleave bs).length = n * bs.length ∧ ∀ p c, c < bs.length → (interleave bs)[p * bs.length + c]? = bs[c]?.bind (·[p]?) := by
  cases bs with
  | nil => exact absurd rfl hne
  | cons b bs =>
    obtain ⟨h1, h2⟩ := zipAll_get n b bs h
    have hrows : ∀ r ∈ zipAll b bs, r.length = (b :: bs).length := by
      intro r hr
      obtain ⟨j, hj⟩ := List.getElem?_of_mem hr
      simpa using (h2 j r hj).2
    constructor
    · unfold interleave
      rw [List.length_flatten]
      have : (zipAll b bs).map List.length = List.replicate n (b :: bs).length := by
        rw [← h1]
        apply List.eq_replicate_iff.mpr
        refine ⟨by simp, ?_⟩
        intro x hx
        simp only [List.mem_map] at hx
        obtain ⟨r, hr, rfl⟩ := hx
        exact hrows r hr
      rw [this]
      simp
    · intro p c hc
      unfold interleave
      rw [flatten_get (b :: bs).length (zipAll b bs) hrows p c hc]
      by_cases hp : p < n
      · obtain ⟨row, hrow⟩ : ∃ row, (zipAll b bs)[p]? = some row := ⟨_, List.getElem?_eq_getElem (by omega)⟩
        rw [hrow, Option.bind_some, (h2 p row hrow).1]
        exact filterMap_get (b :: bs) n p c h hp
      · rw [List.getElem?_eq_none (by omega)]
        simp only [Option.bind_none]
        rw [List.getElem?_eq_getElem hc, Option.bind_some, List.getElem?_eq_none]
        rw [h _ (List.getElem_mem hc)]
        omega

/-! ## Images -/

/-- **C63.**  Each band holds one sample of each pixel: sample `p` of band `c` is sample `c` of pixel `p`. -/
theorem split_get (i : Image α) (hi : i.Valid) : i.split.length = i.mode.length ∧
    ∀ (c : ℕ) (b : List α), i.split[c]? = some b → b.length = i.width * i.height ∧ ∀ p, b[p]? = i.data[p * i.mode.length + c]? := by
  have hm : 0 < i.mode.length := List.length_pos_iff.mpr hi.2.2.1
  refine ⟨by simp [Image.split], fun c b hb => ?_⟩
  have hc : c < i.mode.length := by
    have := (List.getElem?_eq_some_iff.mp hb).1
    simpa [Image.split] using this
  simp only [Image.split, List.getElem?_map, List.getElem?_range hc, Option.map_some, Option.some.injEq] at hb
  subst hb
  refine ⟨stride_length _ _ hm _ (by rw [hi.2.2.2]; ring) c hc, fun p => ?_⟩
  rw [stride_get _ hm, add_comm]

/-- **C63.**  Interleaving the bands gives the original data. -/
theorem interleave_split (i : Image α) (hi : i.Valid) : interleave i.split = i.data := by
  obtain ⟨h1, h2⟩ := split_get i hi
  have hm : 0 < i.mode.length := List.length_pos_iff.mpr hi.2.2.1
  have hlen : ∀ b ∈ i.split, b.length = i.width * i.height := by
    intro b hb
    obtain ⟨c, hc⟩ := List.getElem?_of_mem hb
    exact (h2 c b hc).1
  obtain ⟨g1, g2⟩ := interleave_get i.split (i.width * i.height) (by intro h; rw [h] at h1; simp at h1; omega) hlen
  apply List.ext_getElem?
  intro q
  have hq : q = q / i.mode.length * i.split.length + q % i.mode.length := by
    rw [h1, mul_comm]; exact (Nat.div_add_mod q _).symm
  have hlt : q % i.mode.length < i.split.length := by rw [h1]; exact Nat.mod_lt _ hm
  rw [hq, g2 _ _ hlt, List.getElem?_eq_getElem hlt, Option.bind_some, (h2 _ _ (List.getElem?_eq_getElem hlt)).2, h1]

/-- **C63.**  Separating an alpha channel: it holds the alpha sample of each pixel, and the data the colour samples of each pixel, in order.
`a` is the position of the alpha channel in the original image and `colour c` that of colour `c`. -/
theorem imagedata_separate (i : Image α) (hi : i.Valid) (a : ℕ) (colour : ℕ → ℕ)
    (ha : (i.mode.head? = some 'A' ∧ a = 0 ∧ ∀ c, colour c = c + 1) ∨
      (i.mode.head? ≠ some 'A' ∧ i.mode.getLast? = some 'A' ∧ a = i.mode.length - 1 ∧ ∀ c, colour c = c))
    (h2 : 2 ≤ i.mode.length) :
    ∃ band, (imagedata i false).2.2 = .band band ∧ band.length = i.width * i.height ∧ (∀ p, band[p]? = i.data[p * i.mode.length + a]?) ∧
      (imagedata i false).2.1.length = i.width * i.height * (i.mode.length - 1) ∧
      ∀ p c, c < i.mode.length - 1 → (imagedata i false).2.1[p * (i.mode.length - 1) + c]? = i.data[p * i.mode.length + colour c]? := by
  obtain ⟨hl, hs⟩ := split_get i hi
  have hlen : ∀ b ∈ i.split, b.length = i.width * i.height := by
    intro b hb
    obtain ⟨c, hc⟩ := List.getElem?_of_mem hb
    exact (hs c b hc).1
  rcases ha with ⟨h1, rfl, hcol⟩ | ⟨h1, h3, rfl, hcol⟩
  · have himg : imagedata i false = (i.mode.tail, interleave i.split.tail, .band (i.split.headD [])) := by
      unfold imagedata
      rw [if_pos h1]
      rfl
    rw [himg]
    simp only
    have h0 : i.split[0]? = some (i.split.headD []) := by
      cases hsp : i.split with
      | nil => rw [hsp] at hl; simp at hl; omega
      | cons b bs => rfl
    have htl : i.split.tail.length = i.mode.length - 1 := by rw [List.length_tail, hl]
    obtain ⟨g1, g2⟩ := interleave_get i.split.tail (i.width * i.height) (by intro h; rw [h] at htl; simp at htl; omega)
      (fun b hb => hlen b (List.mem_of_mem_tail hb))
    rw [htl] at g1 g2
    refine ⟨_, rfl, (hs 0 _ h0).1, (hs 0 _ h0).2, g1, fun p c hc => ?_⟩
    rw [g2 p c hc, List.getElem?_tail]
    have hlt : c + 1 < i.split.length := by omega
    rw [List.getElem?_eq_getElem hlt, Option.bind_some, (hs _ _ (List.getElem?_eq_getElem hlt)).2, hcol]
  · have himg : imagedata i false = (i.mode.dropLast, interleave i.split.dropLast, .band (i.split.getLastD [])) := by
      unfold imagedata
      rw [if_neg h1, if_pos h3]
      rfl
    rw [himg]
    simp only
    have h0 : i.split[i.mode.length - 1]? = some (i.split.getLastD []) := by
      rw [← hl, ← List.getLast?_eq_getElem?]
      cases hsp : i.split with
      | nil => rw [hsp] at hl; simp at hl; omega
      | cons b bs => rw [List.getLastD_cons, List.getLast?_cons, List.getLastD_eq_getLast?]
    have htl : i.split.dropLast.length = i.mode.length - 1 := by rw [List.length_dropLast, hl]
    obtain ⟨g1, g2⟩ := interleave_get i.split.dropLast (i.width * i.height) (by intro h; rw [h] at htl; simp at htl; omega)
      (fun b hb => hlen b ((List.dropLast_sublist _).subset hb))
    rw [htl] at g1 g2
    refine ⟨_, rfl, (hs _ _ h0).1, (hs _ _ h0).2, g1, fun p c hc => ?_⟩
    rw [g2 p c hc, List.getElem?_dropLast, if_pos (by omega)]
    have hlt : c < i.split.length := by omega
    rw [List.getElem?_eq_getElem hlt, Option.bind_some, (hs _ _ (List.getElem?_eq_getElem hlt)).2, hcol]

/-- **C63.**  Interleaving the alpha channel in front: each pixel is its alpha sample followed by its colour samples. -/
theorem imagedata_interleaved (i : Image α) (hi : i.Valid) (a : ℕ) (colour : ℕ → ℕ)
    (ha : (i.mode.head? = some 'A' ∧ a = 0 ∧ ∀ c, colour c = c + 1) ∨
      (i.mode.head? ≠ some 'A' ∧ i.mode.getLast? = some 'A' ∧ a = i.mode.length - 1 ∧ ∀ c, colour c = c))
    (h2 : 2 ≤ i.mode.length) :
    (imagedata i true).2.2 = .front ∧ (imagedata i true).2.1.length = i.data.length ∧
      (∀ p, (imagedata i true).2.1[p * i.mode.length]? = i.data[p * i.mode.length + a]?) ∧
      ∀ p c, c < i.mode.length - 1 → (imagedata i true).2.1[p * i.mode.length + (c + 1)]? = i.data[p * i.mode.length + colour c]? := by
  obtain ⟨hl, hs⟩ := split_get i hi
  have hlen : ∀ b ∈ i.split, b.length = i.width * i.height := by
    intro b hb
    obtain ⟨c, hc⟩ := List.getElem?_of_mem hb
    exact (hs c b hc).1
  rcases ha with ⟨h1, rfl, hcol⟩ | ⟨h1, h3, rfl, hcol⟩
  · have himg : imagedata i true = (i.mode.tail, i.data, .front) := by
      unfold imagedata
      rw [if_pos h1]
      rfl
    rw [himg]
    exact ⟨rfl, rfl, fun p => rfl, fun p c _ => by rw [hcol]⟩
  · have himg : imagedata i true = (i.mode.dropLast, interleave (i.split.getLastD [] :: i.split.dropLast), .front) := by
      unfold imagedata
      rw [if_neg h1, if_pos h3]
      rfl
    rw [himg]
    simp only
    have h0 : i.split[i.mode.length - 1]? = some (i.split.getLastD []) := by
      rw [← hl, ← List.getLast?_eq_getElem?]
      cases hsp : i.split with
      | nil => rw [hsp] at hl; simp at hl; omega
      | cons b bs => rw [List.getLastD_cons, List.getLast?_cons, List.getLastD_eq_getLast?]
    have htl : (i.split.getLastD [] :: i.split.dropLast).length = i.mode.length := by
      rw [List.length_cons, List.length_dropLast, hl]; omega
    obtain ⟨g1, g2⟩ := interleave_get (i.split.getLastD [] :: i.split.dropLast) (i.width * i.height) (by simp)
      (fun b hb => by
        simp only [List.mem_cons] at hb
        rcases hb with rfl | hb
        · exact (hs _ _ h0).1
        · exact hlen b ((List.dropLast_sublist _).subset hb))
    rw [htl] at g1 g2
    refine ⟨trivial, by rw [g1, hi.2.2.2]; ring, fun p => ?_, fun p c hc => ?_⟩
    · have := g2 p 0 (by omega)
      rw [Nat.add_zero] at this
      rw [this, List.getElem?_cons_zero, Option.bind_some, (hs _ _ h0).2]
    · rw [g2 p (c + 1) (by omega), List.getElem?_cons_succ, List.getElem?_dropLast, if_pos (by omega)]
      have hlt : c < i.split.length := by omega
      rw [List.getElem?_eq_getElem hlt, Option.bind_some, (hs _ _ (List.getElem?_eq_getElem hlt)).2, hcol]

/-- Two pixels of mode RGBA. -/
example : imagedata ⟨2, 1, ['R', 'G', 'B', 'A'], [1, 2, 3, 4, 5, 6, 7, 8]⟩ false = (['R', 'G', 'B'], [1, 2, 3, 5, 6, 7], .band [4, 8]) ∧
    imagedata ⟨2, 1, ['R', 'G', 'B', 'A'], [1, 2, 3, 4, 5, 6, 7, 8]⟩ true = (['R', 'G', 'B'], [4, 1, 2, 3, 8, 5, 6, 7], .front) ∧
    imagedata ⟨2, 1, ['A', 'L'], [1, 2, 3, 4]⟩ false = (['L'], [2, 4], .band [1, 3]) := ⟨rfl, rfl, rfl⟩

end PyX.Bitmap
