import Verif.Mesh.Props
import Mathlib.Tactic.Ring

/-!
# C165: meshes in PostScript and PDF (`pyx/mesh.py:79-95, 110-180`)

The check of the elements, the dictionary and the data of the shading, and a reader for shadings of type 4 (free-form Gouraud-shaded triangle meshes).
`%f` is a function to the number printed; `zlib` and its inverse are functions on bytes.
-/

set_option linter.unusedSectionVars false
set_option linter.unusedSimpArgs false

namespace PyX.Mesh.Output

/-! ## The model -/

/-- The values of nodes: colors, or something without colors. -/
inductive Color (K : Type) where
  | gray (g : K)
  | rgb (r g b : K)
  | cmyk (c m y k : K)
  | hsb (h s b : K)
  | other

/-- `node_pt` (`mesh.py:40-47`). -/
structure MNode (K : Type) where
  coords : List K
  value : Color K

inductive Err
  | value
  | runtime
  | attribute
  | data (e : Mesh.Err)
  deriving DecidableEq

section
variable {K : Type} [Field K] [LinearOrder K] [IsStrictOrderedRing K] [FloorRing K]

/-- `colorspacestring` (`color.py:101-102, 158-159, 224-225, 274-275`). -/
def Color.space : Color K → Except Err String
  | .gray _ => .ok "/DeviceGray"
  | .rgb _ _ _ => .ok "/DeviceRGB"
  | .cmyk _ _ _ _ => .ok "/DeviceCMYK"
  | .hsb _ _ _ => .error .runtime
  | .other => .error .attribute

/-- The components which are written. -/
def Color.comps : Color K → List K
  | .gray g => [g]
  | .rgb r g b => [r, g, b]
  | .cmyk c m y k => [c, m, y, k]
  | _ => []

/-- `int(c*255)`. -/
def byte (c : K) : ℕ := (trunc (c * 255)).toNat

/-- `to8bitbytes` (`color.py:104-105, 161-162, 277-278`), for components from 0 to 1 (checked by the constructors, C37). -/
def Color.bytes (c : Color K) : List ℕ := c.comps.map byte

/-- `except AttributeError: raise ValueError` (`mesh.py:91-92`). -/
def asValue : Except Err String → Except Err String
  | .error .attribute => .error .value
  | r => r

/-- The loop over the values of the nodes of an element (`mesh.py:86-90`): the color space. -/
def checkValues : String → List (MNode K) → Except Err String
  | cs, [] => .ok cs
  | cs, n :: l =>
    match asValue n.value.space with
    | .error e => .error e
    | .ok s => if cs = "" then checkValues s l else if s ≠ cs then .error .value else checkValues cs l

/-- The loop over the elements (`mesh.py:82-95`). -/
def checkElements : String → List (List (MNode K)) → Except Err String
  | cs, [] => .ok cs
  | cs, e :: l =>
    if e.length ≠ 3 then .error .value
    else
      match checkValues cs e with
      | .error e => .error e
      | .ok cs => if e.any (fun n => n.coords.length ≠ 2) then .error .value else checkElements cs l

/-- `mesh.__init__` with `check=1`. -/
def check (elements : List (List (MNode K))) : Bool :=
  match checkElements "" elements with
  | .ok _ => true
  | .error _ => false

/-- A node for `data`. -/
def toNode (n : MNode K) : Node K := ⟨n.coords.getD 0 0, n.coords.getD 1 0, n.value.bytes⟩

/-- The dictionary of the shading (`mesh.py:127-134, 159-168`). -/
structure Dict (K : Type) where
  type : ℕ
  space : String
  bitsCoord : ℕ
  bitsComp : ℕ
  bitsFlag : ℕ
  decode : List K
  /-- The filters by which the data are decoded, first one first. -/
  filters : List String
  /-- `/Length`, in PDF only. -/
  length : Option ℕ

/-- `/Decode [%f %f %f %f %s]` (`mesh.py:132, 136-137`). -/
def decodeArray (pf : K → K) (b : Box K) (n : ℕ) : List K :=
  [pf b.llx, pf b.urx, pf b.lly, pf b.ury] ++ (List.replicate n [0, 1]).flatten

/-- The color space of the first node and the number of its bytes (`mesh.py:135-137, 169-171`); without a node the IndexError is not told from a ValueError. -/
def firstSpace (elements : List (List (MNode K))) : Except Err (String × ℕ) :=
  match elements with
  | (n :: _) :: _ => n.value.space.map fun s => (s, n.value.bytes.length)
  | _ => .error .value

def liftE {α : Type} : Except Mesh.Err α → Except Err α
  | .ok a => .ok a
  | .error e => .error (.data e)

/-- `binascii.b2a_hex`, a byte. -/
def hexByte (n : ℕ) : List ℕ := [n / 16, n % 16]

/-- The hexadecimal digits of the data, and the end `>` (`mesh.py:138-139`); digits are numbers, `>` is 16. -/
def hex (l : List ℕ) : List ℕ := l.flatMap hexByte ++ [16]

/-- `processPS` without `meshasbitmap` (`mesh.py:125-139`). -/
def ps (pf : K → K) (zlib : List ℕ → List ℕ) (elements : List (List (MNode K))) : Except Err (Dict K × List ℕ) := do
  let b ← liftE (bbox (elements.flatten.map toNode))
  let (s, n) ← firstSpace elements
  let d ← liftE (data b (elements.flatten.map toNode))
  return (⟨4, s, 24, 8, 8, decodeArray pf b n, ["/ASCIIHexDecode", "/FlateDecode"], none⟩, hex (zlib d))

/-- `processPDF` without `meshasbitmap` (`mesh.py:153-177`). -/
def pdf (pf : K → K) (zlib : List ℕ → List ℕ) (compress : Bool) (elements : List (List (MNode K))) : Except Err (Dict K × List ℕ) := do
  let b ← liftE (bbox (elements.flatten.map toNode))
  let d ← liftE (data b (elements.flatten.map toNode))
  let (s, n) ← firstSpace elements
  let stored := if compress then zlib d else d
  return (⟨4, s, 24, 8, 8, decodeArray pf b n, if compress then ["/FlateDecode"] else [], some stored.length⟩, stored)

/-! ## Specification: shadings of type 4 -/

/-- A vertex which is shown: position and color components. -/
structure Vertex (K : Type) where
  x : K
  y : K
  comps : List K

/-- The number of components of a color space. -/
def spaceComps (s : String) : Option ℕ :=
  if s = "/DeviceGray" then some 1 else if s = "/DeviceRGB" then some 3 else if s = "/DeviceCMYK" then some 4 else none

/-- Hexadecimal digits up to `>`. -/
def unhex : List ℕ → Option (List ℕ)
  | [] => none
  | 16 :: _ => some []
  | a :: 16 :: _ => some [16 * a]
  | a :: b :: l => (unhex l).map fun r => (16 * a + b) :: r
  | [_] => none

/-- One filter. -/
def applyFilter (inflate : List ℕ → Option (List ℕ)) (name : String) (l : List ℕ) : Option (List ℕ) :=
  if name = "/ASCIIHexDecode" then unhex l else if name = "/FlateDecode" then inflate l else none

/-- All filters. -/
def unfilter (inflate : List ℕ → Option (List ℕ)) : List String → List ℕ → Option (List ℕ)
  | [], l => some l
  | f :: fs, l => (applyFilter inflate f l).bind (unfilter inflate fs)

/-- Components by the rest of the decode array, for 8 bits. -/
def comps : List K → List ℕ → Option (List K)
  | [], [] => some []
  | lo :: hi :: d, v :: l => (comps d l).map fun r => (lo + v * (hi - lo) / 255) :: r
  | _, _ => none

/-- Triangles by the flags: 0 for three new vertices, 1 and 2 for one vertex and a side of the previous triangle.  The flags of the second and third vertex do not matter. -/
def triangles : Option (Vertex K × Vertex K × Vertex K) → List (ℕ × Vertex K) → Option (List (Vertex K × Vertex K × Vertex K))
  | _, [] => some []
  | _, (0, a) :: (_, b) :: (_, c) :: l => (triangles (some (a, b, c)) l).map ((a, b, c) :: ·)
  | some (_, b, c), (1, d) :: l => (triangles (some (b, c, d)) l).map ((b, c, d) :: ·)
  | some (a, _, c), (2, d) :: l => (triangles (some (a, c, d)) l).map ((a, c, d) :: ·)
  | _, _ => none

/-- A vertex of the data of `Mesh.decode`. -/
def vertex (decode : List K) (r : ℕ × Node K) : Option (ℕ × Vertex K) := (comps decode r.2.colour).map fun c => (r.1, ⟨r.2.x, r.2.y, c⟩)

/-- What a viewer shows; only for 24 bits for coordinates and 8 bits for flags and components.  In PDF the data are as long as announced. -/
def view (inflate : List ℕ → Option (List ℕ)) (d : Dict K) (stored : List ℕ) : Option (List (Vertex K × Vertex K × Vertex K)) :=
  if d.type = 4 ∧ d.bitsCoord = 24 ∧ d.bitsComp = 8 ∧ d.bitsFlag = 8 then
    (unfilter inflate d.filters (match d.length with | some n => stored.take n | none => stored)).bind fun l =>
    (spaceComps d.space).bind fun n =>
      match d.decode with
      | xlo :: xhi :: ylo :: yhi :: rest => (Mesh.decode ⟨xlo, ylo, xhi, yhi⟩ n l.length l).bind fun vs => (vs.mapM (vertex rest)).bind (triangles none)
      | _ => none
  else none

/-- `v` shows the node: the position up to one step of 2⁻²⁴ of the size and the error `δ` of the printed numbers, the color up to 1/255. -/
def Shows (b : Box K) (δ : K) (n : MNode K) (v : Vertex K) : Prop :=
  (∃ x y, n.coords = [x, y] ∧ |v.x - x| < (b.urx - b.llx) / 16777215 + δ ∧ |v.y - y| < (b.ury - b.lly) / 16777215 + δ) ∧
    List.Forall₂ (fun c v => v ≤ c ∧ c < v + 1 / 255) n.value.comps v.comps

/-- A triangle shows an element. -/
def ShowsElement (b : Box K) (δ : K) (e : List (MNode K)) (t : Vertex K × Vertex K × Vertex K) : Prop :=
  List.Forall₂ (Shows b δ) e [t.1, t.2.1, t.2.2]

/-- What the check is for: triangles in the plane with colors of one space. -/
def Proper (elements : List (List (MNode K))) : Prop :=
  ∃ s, ∀ e ∈ elements, e.length = 3 ∧ ∀ n ∈ e, n.coords.length = 2 ∧ n.value.space = .ok s

/-! ## The check -/

theorem space_ne (c : Color K) (s : String) (h : c.space = .ok s) : s ≠ "" := by
  cases c with
  | gray g => injection h with h; rw [← h]; decide
  | rgb r g b => injection h with h; rw [← h]; decide
  | cmyk c m y k => injection h with h; rw [← h]; decide
  | hsb h s b => cases h
  | other => cases h

theorem asValue_ok (r : Except Err String) (s : String) : asValue r = .ok s ↔ r = .ok s := by
  cases r with
  | ok a => rfl
  | error e => cases e <;> simp [asValue]

theorem checkValues_ok (cs : String) (l : List (MNode K)) (r : String) (hl : l ≠ []) :
    checkValues cs l = .ok r ↔ (cs = "" ∨ cs = r) ∧ ∀ n ∈ l, n.value.space = .ok r := by
  induction l generalizing cs with
  | nil => exact absurd rfl hl
  | cons n l ih =>
    rw [checkValues]
    cases hn : asValue n.value.space with
    | error e =>
      simp only [reduceCtorEq, false_iff]
      intro ⟨_, h⟩
      rw [(asValue_ok _ _).mpr (h n List.mem_cons_self)] at hn
      cases hn
    | ok s =>
      have hs := (asValue_ok _ _).mp hn
      have hne := space_ne _ _ hs
      dsimp only
      cases l with
      | nil =>
        simp only [checkValues, List.mem_singleton, forall_eq, hs]
        by_cases h : cs = ""
        · rw [if_pos h]
          simp [h]
        · rw [if_neg h]
          by_cases h' : s = cs
          · rw [if_neg (not_not.mpr h'), h']
            simp [h]
          · rw [if_pos h']
            simp only [reduceCtorEq, h, false_or, Except.ok.injEq, false_iff, not_and]
            intro h1 h2
            exact h' (h2.trans h1.symm)
      | cons m l =>
        by_cases h : cs = ""
        · rw [if_pos h, ih s (by simp), h]
          simp only [hne, false_or, true_or, true_and, List.forall_mem_cons, hs, Except.ok.injEq]
        · rw [if_neg h]
          by_cases h' : s = cs
          · rw [if_neg (not_not.mpr h'), ih cs (by simp)]
            simp only [h, false_or, List.forall_mem_cons, hs, Except.ok.injEq, h']
            tauto
          · rw [if_pos h']
            simp only [reduceCtorEq, h, false_or, false_iff, not_and, List.forall_mem_cons, hs, Except.ok.injEq]
            intro h1 h2
            exact absurd (h2.trans h1.symm) h'

theorem checkElements_ok (cs : String) (l : List (List (MNode K))) : (∃ r, checkElements cs l = .ok r) ↔
    ∃ s, (l ≠ [] → cs = "" ∨ cs = s) ∧ ∀ e ∈ l, e.length = 3 ∧ ∀ n ∈ e, n.coords.length = 2 ∧ n.value.space = .ok s := by
  induction l generalizing cs with
  | nil => exact ⟨fun _ => ⟨"", by simp, by simp⟩, fun _ => ⟨cs, rfl⟩⟩
  | cons e l ih =>
    rw [checkElements]
    by_cases h3 : e.length = 3
    · rw [if_neg (not_not.mpr h3)]
      have he : e ≠ [] := by intro h; rw [h] at h3; cases h3
      cases hv : checkValues cs e with
      | error x =>
        simp only [reduceCtorEq, exists_false, false_iff, not_exists, not_and]
        intro s h1 h2
        have := (checkValues_ok cs e s he).mpr ⟨h1 (by simp), fun n hn => ((h2 e List.mem_cons_self).2 n hn).2⟩
        rw [hv] at this
        cases this
      | ok cs' =>
        obtain ⟨v1, v2⟩ := (checkValues_ok cs e cs' he).mp hv
        dsimp only
        have hne : cs' ≠ "" := by
          obtain ⟨a, t, rfl⟩ := List.exists_cons_of_ne_nil he
          exact space_ne _ _ (v2 a List.mem_cons_self)
        have uniq : ∀ s, (∀ n ∈ e, n.value.space = .ok s) → s = cs' := by
          intro s hs
          obtain ⟨a, t, rfl⟩ := List.exists_cons_of_ne_nil he
          have := hs a List.mem_cons_self
          rw [v2 a List.mem_cons_self] at this
          injection this with this
          exact this.symm
        by_cases hc : e.any (fun n => n.coords.length ≠ 2) = true
        · rw [if_pos hc]
          simp only [reduceCtorEq, exists_false, false_iff, not_exists, not_and]
          intro s _ h2
          obtain ⟨n, hn, hn'⟩ := List.any_eq_true.mp hc
          exact (of_decide_eq_true hn') ((h2 e List.mem_cons_self).2 n hn).1
        · rw [if_neg hc, ih cs']
          have hc' : ∀ n ∈ e, n.coords.length = 2 := by
            intro n hn
            by_contra h
            exact hc (List.any_eq_true.mpr ⟨n, hn, decide_eq_true h⟩)
          constructor
          · rintro ⟨s, h1, h2⟩
            refine ⟨cs', fun _ => v1, ?_⟩
            intro e' he'
            rcases List.mem_cons.mp he' with rfl | he'
            · exact ⟨h3, fun n hn => ⟨hc' n hn, v2 n hn⟩⟩
            · have hl : l ≠ [] := List.ne_nil_of_mem he'
              have : cs' = s := (h1 hl).resolve_left hne
              rw [this]
              exact h2 e' he'
          · rintro ⟨s, h1, h2⟩
            have hs := uniq s fun n hn => ((h2 e List.mem_cons_self).2 n hn).2
            exact ⟨s, fun _ => .inr hs.symm, fun e' he' => h2 e' (List.mem_cons_of_mem _ he')⟩
    · rw [if_pos h3]
      simp only [reduceCtorEq, exists_false, false_iff, not_exists, not_and]
      intro s _ h2
      exact h3 (h2 e List.mem_cons_self).1

/-- C165: exactly meshes of triangles in the plane with colors of one color space (gray, RGB or CMYK) pass the check. -/
theorem check_iff (elements : List (List (MNode K))) : check elements = true ↔ Proper elements := by
  have h := checkElements_ok "" elements
  simp only [true_or, implies_true, true_and] at h
  rw [Proper, ← h, check]
  cases checkElements "" elements with
  | ok r => simp
  | error e => simp

/-! ## What is shown -/

/-- Components within 0 and 1, as the constructors of colors check. -/
def Valid (c : Color K) : Prop := ∀ v ∈ c.comps, 0 ≤ v ∧ v ≤ 1

theorem byte_spec (c : K) (h : 0 ≤ c ∧ c ≤ 1) : byte c < 256 ∧ (0 : K) + (byte c : K) * (1 - 0) / 255 ≤ c ∧ c < 0 + (byte c : K) * (1 - 0) / 255 + 1 / 255 := by
  have h0 : ¬ c * 255 < 0 := not_lt.mpr (mul_nonneg h.1 (by norm_num))
  have hb : ((byte c : ℕ) : ℤ) = ⌊c * 255⌋ := by
    unfold byte trunc
    rw [if_neg h0, Int.toNat_of_nonneg (Int.floor_nonneg.mpr (not_lt.mp h0))]
  have hb' : ((byte c : ℕ) : K) = ((⌊c * 255⌋ : ℤ) : K) := by
    rw [← hb]; simp
  have l1 := Int.floor_le (c * 255)
  have l2 := Int.lt_floor_add_one (c * 255)
  rw [← hb'] at l1 l2
  refine ⟨?_, ?_, ?_⟩
  · have : (byte c : K) < (256 : ℕ) := by
      push_cast
      nlinarith [h.2]
    exact_mod_cast this
  · have : (byte c : K) * (1 - 0) / 255 ≤ c := by
      rw [div_le_iff₀ (by norm_num)]
      linarith
    linarith
  · have e : (0 : K) + (byte c : K) * (1 - 0) / 255 + 1 / 255 = ((byte c : K) + 1) / 255 := by ring
    rw [e, lt_div_iff₀ (by norm_num)]
    linarith

theorem comps_bytes (l : List K) (h : ∀ v ∈ l, 0 ≤ v ∧ v ≤ 1) :
    ∃ r, comps (List.replicate l.length [(0 : K), 1]).flatten (l.map byte) = some r ∧ List.Forall₂ (fun c v => v ≤ c ∧ c < v + 1 / 255) l r := by
  induction l with
  | nil => exact ⟨[], rfl, .nil⟩
  | cons a l ih =>
    obtain ⟨r, h1, h2⟩ := ih fun v hv => h v (List.mem_cons_of_mem _ hv)
    refine ⟨(0 + (byte a : K) * (1 - 0) / 255) :: r, ?_, .cons (byte_spec a (h a List.mem_cons_self)).2 h2⟩
    rw [List.length_cons, List.replicate_succ, List.flatten_cons, List.map_cons]
    change comps (0 :: 1 :: (List.replicate l.length [(0 : K), 1]).flatten) (byte a :: l.map byte) = _
    rw [comps, h1]
    rfl

theorem decode_rounded (lo hi lo' hi' δ : K) (a b c : ℕ) (ha : a < 256) (hb : b < 256) (hc : c < 256) (h1 : |lo' - lo| ≤ δ) (h2 : |hi' - hi| ≤ δ) :
    |decodeCoord lo' hi' a b c - decodeCoord lo hi a b c| ≤ δ := by
  unfold decodeCoord
  have hn : ((a * 65536 + b * 256 + c : ℕ) : K) ≤ 16777215 := by
    have : a * 65536 + b * 256 + c ≤ 16777215 := by omega
    exact_mod_cast this
  have hn0 : (0 : K) ≤ ((a * 65536 + b * 256 + c : ℕ) : K) := Nat.cast_nonneg _
  set n : K := ((a * 65536 + b * 256 + c : ℕ) : K)
  set t := n / 16777215 with ht
  have t0 : 0 ≤ t := div_nonneg hn0 (by norm_num)
  have t1 : t ≤ 1 := by rw [ht, div_le_one (by norm_num)]; exact hn
  have e : lo' + n * (hi' - lo') / 16777215 - (lo + n * (hi - lo) / 16777215) = (1 - t) * (lo' - lo) + t * (hi' - hi) := by
    rw [ht]; ring
  rw [e]
  obtain ⟨a1, a2⟩ := abs_le.mp h1
  obtain ⟨b1, b2⟩ := abs_le.mp h2
  rw [abs_le]
  constructor
  · nlinarith [mul_le_mul_of_nonneg_left a1 (sub_nonneg.mpr t1), mul_le_mul_of_nonneg_left b1 t0]
  · nlinarith [mul_le_mul_of_nonneg_left a2 (sub_nonneg.mpr t1), mul_le_mul_of_nonneg_left b2 t0]

/-- The box of the printed numbers. -/
def printed (pf : K → K) (b : Box K) : Box K := ⟨pf b.llx, pf b.lly, pf b.urx, pf b.ury⟩

theorem close_printed {lo hi x δ v v' : K} (h1 : lo ≤ v) (h2 : v ≤ x) (h3 : x - v < (hi - lo) / 16777215) (h4 : |v' - v| ≤ δ) : |v' - x| < (hi - lo) / 16777215 + δ := by
  obtain ⟨a, b⟩ := abs_le.mp h4
  rw [abs_lt]
  constructor <;> linarith

/-- The data of nodes are read with the printed box. -/
theorem nodes_shown (pf : K → K) (δ : K) (b : Box K) (hx : b.llx < b.urx) (hy : b.lly < b.ury)
    (hp : ∀ x, |pf x - x| ≤ δ) (k : ℕ) (nodes : List (MNode K)) (hn : ∀ n ∈ nodes, n.coords.length = 2 ∧ n.value.comps.length = k ∧ Valid n.value)
    (hc : ∀ n ∈ nodes, (b.llx ≤ (toNode n).x ∧ (toNode n).x ≤ b.urx) ∧ b.lly ≤ (toNode n).y ∧ (toNode n).y ≤ b.ury) :
    ∃ bytes, data b (nodes.map toNode) = .ok bytes ∧ 7 * nodes.length ≤ bytes.length ∧ ∃ read, (∀ m, nodes.length ≤ m → Mesh.decode (printed pf b) k m bytes = some read) ∧
      ∃ vs, read.mapM (vertex (List.replicate k [(0 : K), 1]).flatten) = some vs ∧ List.Forall₂ (fun n v => v.1 = 0 ∧ Shows b δ n v.2) nodes vs := by
  induction nodes with
  | nil => exact ⟨[], rfl, le_rfl, [], fun m _ => by cases m <;> rfl, [], rfl, .nil⟩
  | cons n ns ih =>
    obtain ⟨rest, h1, hlen, read, h2, vs, h3, h4⟩ := ih (fun m hm => hn m (List.mem_cons_of_mem _ hm)) (fun m hm => hc m (List.mem_cons_of_mem _ hm))
    obtain ⟨⟨c1, c2⟩, c3, c4⟩ := hc n List.mem_cons_self
    obtain ⟨n1, n2, n3⟩ := hn n List.mem_cons_self
    obtain ⟨a1, a2, a3, ea, x1, x2, x3, da1, da2, da3⟩ := coords24_spec (toNode n).x b.llx b.urx c1 c2 hx
    obtain ⟨b1, b2, b3, eb, y1, y2, y3, db1, db2, db3⟩ := coords24_spec (toNode n).y b.lly b.ury c3 c4 hy
    obtain ⟨r, r1, r2⟩ := comps_bytes n.value.comps n3
    rw [n2] at r1
    have hcol : (toNode n).colour.length = k := by
      change (n.value.comps.map byte).length = k
      rw [List.length_map, n2]
    obtain ⟨x, y, hxy⟩ := List.length_eq_two.mp n1
    have ex : (toNode n).x = x := by change n.coords.getD 0 0 = x; rw [hxy]; rfl
    have ey : (toNode n).y = y := by change n.coords.getD 1 0 = y; rw [hxy]; rfl
    refine ⟨0 :: a1 :: a2 :: a3 :: b1 :: b2 :: b3 :: ((toNode n).colour ++ rest), ?_, ?_,
      (0, ⟨decodeCoord (pf b.llx) (pf b.urx) a1 a2 a3, decodeCoord (pf b.lly) (pf b.ury) b1 b2 b3, (toNode n).colour⟩) :: read, ?_,
      (0, ⟨decodeCoord (pf b.llx) (pf b.urx) a1 a2 a3, decodeCoord (pf b.lly) (pf b.ury) b1 b2 b3, r⟩) :: vs, ?_, ?_⟩
    · rw [List.map_cons]
      unfold data nodeData
      rw [ea]
      simp only
      rw [eb]
      simp only
      rw [h1]
      simp
    · simp only [List.length_cons, List.length_append]; omega
    · intro m hm
      obtain ⟨m, rfl⟩ : ∃ m', m = m' + 1 := ⟨m - 1, by rw [List.length_cons] at hm; omega⟩
      rw [Mesh.decode, if_neg (by rw [List.length_append]; omega)]
      rw [← hcol, List.drop_left, List.take_left, hcol, h2 m (by rw [List.length_cons] at hm; omega)]
      rfl
    · rw [List.mapM_cons, h3]
      have : vertex (List.replicate k [(0 : K), 1]).flatten
          (0, ⟨decodeCoord (pf b.llx) (pf b.urx) a1 a2 a3, decodeCoord (pf b.lly) (pf b.ury) b1 b2 b3, (toNode n).colour⟩) =
          some (0, ⟨decodeCoord (pf b.llx) (pf b.urx) a1 a2 a3, decodeCoord (pf b.lly) (pf b.ury) b1 b2 b3, r⟩) := by
        unfold vertex
        change (comps _ (n.value.comps.map byte)).map _ = _
        rw [r1]
        rfl
      rw [this]
      rfl
    · refine .cons ⟨rfl, ⟨x, y, hxy, ?_, ?_⟩, r2⟩ h4
      · rw [ex] at da2 da3
        exact close_printed da1 da2 da3 (decode_rounded _ _ _ _ δ a1 a2 a3 x1 x2 x3 (hp _) (hp _))
      · rw [ey] at db2 db3
        exact close_printed db1 db2 db3 (decode_rounded _ _ _ _ δ b1 b2 b3 y1 y2 y3 (hp _) (hp _))

/-- Vertices with flag 0 are taken three by three. -/
theorem triangles_shown (b : Box K) (δ : K) (elements : List (List (MNode K))) (h3 : ∀ e ∈ elements, e.length = 3) (vs : List (ℕ × Vertex K))
    (h : List.Forall₂ (fun n v => v.1 = 0 ∧ Shows b δ n v.2) elements.flatten vs) (t0 : Option (Vertex K × Vertex K × Vertex K)) :
    ∃ ts, triangles t0 vs = some ts ∧ List.Forall₂ (ShowsElement b δ) elements ts := by
  induction elements generalizing vs t0 with
  | nil =>
    cases h
    exact ⟨[], by rw [triangles], .nil⟩
  | cons e l ih =>
    obtain ⟨n1, n2, n3, rfl⟩ := List.length_eq_three.mp (h3 e List.mem_cons_self)
    rw [List.flatten_cons] at h
    cases h with
    | @cons _ v1 _ vs1 g1 h =>
      cases h with
      | @cons _ v2 _ vs2 g2 h =>
        cases h with
        | @cons _ v3 _ vs3 g3 h =>
          obtain ⟨ts, i1, i2⟩ := ih (fun e he => h3 e (List.mem_cons_of_mem _ he)) vs3 h (some (v1.2, v2.2, v3.2))
          refine ⟨(v1.2, v2.2, v3.2) :: ts, ?_, .cons (.cons g1.2 (.cons g2.2 (.cons g3.2 .nil))) i2⟩
          obtain ⟨f1, v1⟩ := v1
          obtain ⟨f2, v2⟩ := v2
          obtain ⟨f3, v3⟩ := v3
          have : f1 = 0 := g1.1
          subst this
          rw [triangles, i1]
          rfl

theorem unhex_hex (l : List ℕ) (h : ∀ b ∈ l, b < 256) : unhex (hex l) = some l := by
  induction l with
  | nil => rfl
  | cons a l ih =>
    have ha := h a List.mem_cons_self
    have e : hex (a :: l) = a / 16 :: a % 16 :: hex l := rfl
    rw [e, unhex, ih fun b hb => h b (List.mem_cons_of_mem _ hb)]
    · have : 16 * (a / 16) + a % 16 = a := Nat.div_add_mod a 16
      rw [Option.map_some, this]
    · omega
    · omega

theorem spaceComps_space (c : Color K) (s : String) (h : c.space = .ok s) : spaceComps s = some c.comps.length := by
  cases c with
  | gray g => injection h with h; rw [← h]; rfl
  | rgb r g b => injection h with h; rw [← h]; rfl
  | cmyk c m y k => injection h with h; rw [← h]; rfl
  | hsb h s b => cases h
  | other => cases h

/-- The facts about a mesh which passed the check and is not flat. -/
theorem mesh_facts (pf : K → K) (δ : K) (hp : ∀ x, |pf x - x| ≤ δ) (elements : List (List (MNode K))) (hcheck : check elements = true)
    (hv : ∀ e ∈ elements, ∀ n ∈ e, Valid n.value) (b : Box K) (hb : bbox (elements.flatten.map toNode) = .ok b) (hx : b.llx < b.urx) (hy : b.lly < b.ury) :
    ∃ s k d, firstSpace elements = .ok (s, k) ∧ spaceComps s = some k ∧ data b (elements.flatten.map toNode) = .ok d ∧
      ∃ vs, Mesh.decode (printed pf b) k d.length d = some vs ∧ ∃ ts, (vs.mapM (vertex (List.replicate k [(0 : K), 1]).flatten)).bind (triangles none) = some ts ∧
        List.Forall₂ (ShowsElement b δ) elements ts := by
  obtain ⟨s, hs⟩ := (check_iff elements).mp hcheck
  obtain ⟨e0, l0, rfl⟩ : ∃ e l, elements = e :: l := by
    cases elements with
    | nil => cases hb
    | cons e l => exact ⟨e, l, rfl⟩
  obtain ⟨n1, n2, n3, he0⟩ := List.length_eq_three.mp (hs e0 List.mem_cons_self).1
  have hsp : n1.value.space = .ok s := ((hs e0 List.mem_cons_self).2 n1 (by rw [he0]; simp)).2
  have hk := spaceComps_space _ _ hsp
  have hall : ∀ n ∈ (e0 :: l0).flatten, n.coords.length = 2 ∧ n.value.comps.length = n1.value.comps.length ∧ Valid n.value := by
    intro n hn
    obtain ⟨e, he, hne⟩ := List.mem_flatten.mp hn
    obtain ⟨g1, g2⟩ := (hs e he).2 n hne
    have := spaceComps_space _ _ g2
    rw [hk] at this
    injection this with this
    exact ⟨g1, this.symm, hv e he n hne⟩
  have hc : ∀ n ∈ (e0 :: l0).flatten, (b.llx ≤ (toNode n).x ∧ (toNode n).x ≤ b.urx) ∧ b.lly ≤ (toNode n).y ∧ (toNode n).y ≤ b.ury := by
    intro n hn
    have := bbox_contains _ b hb (toNode n) (List.mem_map_of_mem hn)
    exact ⟨⟨this.1, this.2.1⟩, this.2.2⟩
  obtain ⟨d, d1, dl, read, d2, vs, d3, d4⟩ := nodes_shown pf δ b hx hy hp n1.value.comps.length _ hall hc
  obtain ⟨ts, t1, t2⟩ := triangles_shown b δ (e0 :: l0) (fun e he => (hs e he).1) vs d4 none
  refine ⟨s, n1.value.comps.length, d, ?_, hk, d1, read, d2 _ (by omega), ts, ?_, t2⟩
  · rw [he0, firstSpace, hsp]
    change Except.ok (s, (n1.value.comps.map byte).length) = _
    rw [List.length_map]
  · rw [d3]
    exact t1

/-- C165: in PostScript, a mesh which passed the check and is not flat shows its triangles in order, each corner at its place and in its color, up to the steps of the
format and the digits of the printed numbers. -/
theorem ps_shown_partial (pf : K → K) (δ : K) (hp : ∀ x, |pf x - x| ≤ δ) (zlib : List ℕ → List ℕ) (inflate : List ℕ → Option (List ℕ))
    (hz : ∀ l, inflate (zlib l) = some l) (hz' : ∀ l, ∀ c ∈ zlib l, c < 256) (elements : List (List (MNode K))) (hcheck : check elements = true)
    (hv : ∀ e ∈ elements, ∀ n ∈ e, Valid n.value) (b : Box K) (hb : bbox (elements.flatten.map toNode) = .ok b) (hx : b.llx < b.urx) (hy : b.lly < b.ury) :
    ∃ r, ps pf zlib elements = .ok r ∧ ∃ ts, view inflate r.1 r.2 = some ts ∧ List.Forall₂ (ShowsElement b δ) elements ts := by
  obtain ⟨s, k, d, f1, f2, f3, vs, f4, ts, f5, f6⟩ := mesh_facts pf δ hp elements hcheck hv b hb hx hy
  refine ⟨(⟨4, s, 24, 8, 8, decodeArray pf b k, ["/ASCIIHexDecode", "/FlateDecode"], none⟩, hex (zlib d)), by
    simp only [ps, hb, f1, f3, liftE, bind, Except.bind, pure, Except.pure], ts, ?_, f6⟩
  unfold view
  rw [if_pos ⟨rfl, rfl, rfl, rfl⟩]
  change ((applyFilter inflate "/ASCIIHexDecode" (hex (zlib d))).bind (unfilter inflate ["/FlateDecode"])).bind _ = _
  have e1 : applyFilter inflate "/ASCIIHexDecode" (hex (zlib d)) = some (zlib d) := by
    unfold applyFilter
    rw [if_pos rfl, unhex_hex _ (hz' d)]
  have e2 : unfilter inflate ["/FlateDecode"] (zlib d) = some d := by
    change (applyFilter inflate "/FlateDecode" (zlib d)).bind (unfilter inflate []) = _
    unfold applyFilter
    rw [if_neg (by decide), if_pos rfl, hz]
    rfl
  rw [e1, Option.bind_some, e2, Option.bind_some]
  change (spaceComps s).bind _ = _
  rw [f2, Option.bind_some]
  change (Mesh.decode (printed pf b) k d.length d).bind _ = _
  rw [f4, Option.bind_some]
  exact f5

/-- C165: the same in PDF, compressed or not; the announced length is the length of the data, whatever follows. -/
theorem pdf_shown_partial (pf : K → K) (δ : K) (hp : ∀ x, |pf x - x| ≤ δ) (zlib : List ℕ → List ℕ) (inflate : List ℕ → Option (List ℕ))
    (hz : ∀ l, inflate (zlib l) = some l) (compress : Bool) (elements : List (List (MNode K))) (hcheck : check elements = true)
    (hv : ∀ e ∈ elements, ∀ n ∈ e, Valid n.value) (b : Box K) (hb : bbox (elements.flatten.map toNode) = .ok b) (hx : b.llx < b.urx) (hy : b.lly < b.ury)
    (after : List ℕ) :
    ∃ r, pdf pf zlib compress elements = .ok r ∧ r.1.length = some r.2.length ∧ ∃ ts, view inflate r.1 (r.2 ++ after) = some ts ∧ List.Forall₂ (ShowsElement b δ) elements ts := by
  obtain ⟨s, k, d, f1, f2, f3, vs, f4, ts, f5, f6⟩ := mesh_facts pf δ hp elements hcheck hv b hb hx hy
  refine ⟨(⟨4, s, 24, 8, 8, decodeArray pf b k, if compress then ["/FlateDecode"] else [], some (if compress then zlib d else d).length⟩, if compress then zlib d else d), by
    simp only [pdf, hb, f1, f3, liftE, bind, Except.bind, pure, Except.pure], rfl, ts, ?_, f6⟩
  unfold view
  rw [if_pos ⟨rfl, rfl, rfl, rfl⟩]
  have e : unfilter inflate (if compress then ["/FlateDecode"] else []) (((if compress then zlib d else d) ++ after).take (if compress then zlib d else d).length) = some d := by
    rw [List.take_left]
    cases compress with
    | false => rfl
    | true =>
      change (applyFilter inflate "/FlateDecode" (zlib d)).bind (unfilter inflate []) = _
      unfold applyFilter
      rw [if_neg (by decide), if_pos rfl, hz]
      rfl
  change (unfilter inflate (if compress then ["/FlateDecode"] else []) (((if compress then zlib d else d) ++ after).take (if compress then zlib d else d).length)).bind _ = _
  rw [e, Option.bind_some]
  change (spaceComps s).bind _ = _
  rw [f2, Option.bind_some]
  change (Mesh.decode (printed pf b) k d.length d).bind _ = _
  rw [f4, Option.bind_some]
  exact f5

/-- C165 (violation): a flat mesh, all of whose nodes are on a vertical line, passes the check, but cannot be written: division by zero. -/
theorem flat_fails (pf : K → K) (zlib : List ℕ → List ℕ) (x y1 y2 y3 g : K) :
    check [[⟨[x, y1], .gray g⟩, ⟨[x, y2], .gray g⟩, ⟨[x, y3], .gray g⟩]] = true ∧
      ps pf zlib [[⟨[x, y1], .gray g⟩, ⟨[x, y2], .gray g⟩, ⟨[x, y3], .gray g⟩]] = .error (.data .zeroDivision) := by
  constructor
  · rw [check_iff]
    exact ⟨"/DeviceGray", by simp [Color.space]⟩
  · have hb : bbox (([[⟨[x, y1], .gray g⟩, ⟨[x, y2], .gray g⟩, ⟨[x, y3], .gray g⟩]] : List (List (MNode K))).flatten.map toNode) =
        .ok ⟨x, min (min y1 y2) y3, x, max (max y1 y2) y3⟩ := by
      simp [toNode, bbox]
    have hd : data ⟨x, min (min y1 y2) y3, x, max (max y1 y2) y3⟩ (([[⟨[x, y1], .gray g⟩, ⟨[x, y2], .gray g⟩, ⟨[x, y3], .gray g⟩]] : List (List (MNode K))).flatten.map toNode) =
        .error .zeroDivision := by
      simp only [List.flatten_cons, List.flatten_nil, List.append_nil, List.map_cons, data, nodeData]
      rw [show (toNode (⟨[x, y1], .gray g⟩ : MNode K)).x = x from rfl, coords24_empty]
    simp only [ps, hb, hd, liftE, bind, Except.bind, firstSpace, Color.space, Except.map]

/-- C165 (violation): a mesh without elements passes the check, but has no bounding box. -/
theorem empty_fails (pf : K → K) (zlib : List ℕ → List ℕ) : check ([] : List (List (MNode K))) = true ∧ ps pf zlib [] = .error (.data .value) := ⟨rfl, rfl⟩

/-- C165: colors given by hue, saturation and brightness are refused by a `RuntimeError`, values which are not colors by a `ValueError`. -/
theorem hsb_refused (h s b : K) (c : List K) (l : List (MNode K)) (hl : l.length = 2) (els : List (List (MNode K))) :
    checkElements "" ((⟨c, .hsb h s b⟩ :: l) :: els) = .error .runtime ∧ checkElements "" ((⟨c, .other⟩ :: l) :: els) = .error .value := by
  constructor <;>
  · rw [checkElements, if_neg (by rw [List.length_cons, hl]; decide)]
    rfl

end

/-! ## Concrete cases -/

/-- Two triangles. -/
def sample : List (List (MNode ℚ)) :=
  [[⟨[0, 0], .rgb 1 0 0⟩, ⟨[4, 0], .rgb 0 1 0⟩, ⟨[2, 2], .rgb 0 0 1⟩], [⟨[4, 0], .rgb 0 1 0⟩, ⟨[6, 2], .rgb (1 / 2) 0 0⟩, ⟨[2, 2], .rgb 0 0 1⟩]]

example : check sample = true := by decide +kernel
example : bbox (sample.flatten.map toNode) = .ok ⟨0, 0, 6, 2⟩ ∧ (0 : ℚ) < 6 ∧ (0 : ℚ) < 2 := by
  refine ⟨?_, by norm_num, by norm_num⟩
  simp [sample, toNode, bbox]
  norm_num
example : ∀ e ∈ sample, ∀ n ∈ e, Valid n.value := by
  simp only [sample, Valid, List.forall_mem_cons, Color.comps]
  norm_num
example : ∀ x : ℚ, |id x - x| ≤ 0 := by simp
example : check ([[⟨[0, 0], .rgb 1 0 0⟩, ⟨[4, 0], .gray 1⟩, ⟨[2, 2], .rgb 0 0 1⟩]] : List (List (MNode ℚ))) = false := by decide +kernel

end PyX.Mesh.Output
