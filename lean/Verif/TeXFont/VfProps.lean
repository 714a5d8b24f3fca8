import Verif.TeXFont.Vf
import Verif.Reader.Props
import Mathlib.Tactic.Common

/-!
# Property C27: virtual fonts
-/

namespace PyX.Vf

open PyX.Reader

/-! ## Specification: the VF file format -/

/-- Items of a VF file. -/
inductive Item
  /-- `short_char`: packet length is the command byte. -/
  | short (cc tfm : Nat) (dvi : List Nat)
  /-- `long_char`: 242 pl[4] cc[4] tfm[4] dvi[pl]. -/
  | long (cc tfm : Nat) (dvi : List Nat)
  /-- `fnt_def1..4`: number stored in `k` bytes. -/
  | fontdef (k : Nat) (num c s d : Int) (area name : List Nat)

/-- Legal ranges. -/
def Item.WF : Item → Prop
  | .short cc tfm dvi => cc < 256 ∧ tfm < 2 ^ 24 ∧ dvi.length < 242
  | .long cc tfm dvi => cc < 2 ^ 32 ∧ tfm < 2 ^ 31 ∧ dvi.length < 2 ^ 32
  | .fontdef k num c s d area name =>
    1 ≤ k ∧ k ≤ 4 ∧ (k < 4 → 0 ≤ num ∧ num < 2 ^ (8 * k)) ∧ (k = 4 → -2 ^ 31 ≤ num ∧ num < 2 ^ 31)
      ∧ (-2 ^ 31 ≤ c ∧ c < 2 ^ 31) ∧ (-2 ^ 31 ≤ s ∧ s < 2 ^ 31) ∧ (-2 ^ 31 ≤ d ∧ d < 2 ^ 31)
      ∧ area.length < 256 ∧ name.length < 256 ∧ (∀ x ∈ area ++ name, x < 128)

/-- Bytes of an item. -/
def Item.bytes : Item → List Nat
  | .short cc tfm dvi => dvi.length :: (put 1 cc ++ (put 3 tfm ++ dvi))
  | .long cc tfm dvi => 242 :: (put 4 dvi.length ++ (put 4 cc ++ (put 4 tfm ++ dvi)))
  | .fontdef k num c s d area name =>
    (242 + k) :: (putS k num ++ (putS 4 c ++ (putS 4 s ++ (putS 4 d ++
      (put 1 area.length ++ (put 1 name.length ++ (area ++ name)))))))

/-- What an item defines. -/
def Item.event : Item → Event
  | .short cc tfm dvi => .char cc tfm dvi
  | .long cc tfm dvi => .char cc tfm dvi
  | .fontdef _ num c s d area name => .font num c s d (area ++ name)

/-- A whole file: preamble, items, at least one `post` byte. -/
def file (comment : List Nat) (cs ds : Nat) (items : List Item) (post : List Nat) : List Nat :=
  247 :: 202 :: comment.length :: (comment ++ (put 4 cs ++ (put 4 ds ++
    ((items.map Item.bytes).flatten ++ 248 :: post))))

def isLong : Item → Bool
  | .long .. => true
  | _ => false

/-- Full claim. -/
def VfCorrect : Prop :=
  ∀ (comment : List Nat) (cs ds : Nat) (items : List Item) (post : List Nat),
    comment.length < 256 → cs < 2 ^ 32 → ds < 2 ^ 32 → (∀ i ∈ items, i.WF) →
    parse (file comment cs ds items post) = some (cs, ds, items.map Item.event)

/-! ## Lemmas -/

theorem readU_one (b : Nat) (s : List Nat) : readU 1 (b :: s) = some (b, s) := by
  simp [readU, Reader.read, unpackU]

theorem read_append (a b : List Nat) (n : Nat) (h : n = a.length) : read n (a ++ b) = (a, b) := by
  subst h; simp [Reader.read]

theorem putS_nonneg (k : Nat) (v : Int) (h0 : 0 ≤ v) (h1 : v < 2 ^ (8 * k)) : putS k v = put k v.toNat := by
  unfold putS; rw [Int.emod_eq_of_lt h0 h1]

theorem readNum_put (k : Nat) (num : Int) (rest : List Nat) (h1 : 1 ≤ k) (h4 : k ≤ 4)
    (hn : k < 4 → 0 ≤ num ∧ num < 2 ^ (8 * k)) (hn4 : k = 4 → -2 ^ 31 ≤ num ∧ num < 2 ^ 31) :
    readNum (242 + k) (putS k num ++ rest) = some (num, rest) := by
  have key : k < 4 → readU k (putS k num ++ rest) = some (num.toNat, rest) ∧ ((num.toNat : Nat) : Int) = num := by
    intro hk
    obtain ⟨h0, h1⟩ := hn hk
    refine ⟨?_, Int.toNat_of_nonneg h0⟩
    rw [putS_nonneg k num h0 h1]
    apply readU_put
    have := Int.toNat_of_nonneg h0
    have h2 : ((num.toNat : Nat) : Int) < ((2 ^ (8 * k) : Nat) : Int) := by rw [this]; simpa using h1
    exact_mod_cast h2
  have hk : k = 1 ∨ k = 2 ∨ k = 3 ∨ k = 4 := by omega
  rcases hk with rfl | rfl | rfl | rfl
  · obtain ⟨e, f⟩ := key (by omega)
    simp [readNum, e, f]
  · obtain ⟨e, f⟩ := key (by omega)
    simp [readNum, e, f]
  · obtain ⟨e, f⟩ := key (by omega)
    simp [readNum, e, f]
  · obtain ⟨a, b⟩ := hn4 rfl
    have := readS_putS 4 (by omega) num a b rest
    simp [readNum, this]

theorem readFontDef_put (k : Nat) (num c s d : Int) (area name rest : List Nat)
    (h : (Item.fontdef k num c s d area name).WF) :
    readFontDef (242 + k) (putS k num ++ (putS 4 c ++ (putS 4 s ++ (putS 4 d ++
      (put 1 area.length ++ (put 1 name.length ++ (area ++ (name ++ rest))))))))
      = some (.font num c s d (area ++ name), rest) := by
  obtain ⟨k1, k4, hn, hn4, hc, hs, hd, ha, hna, hx⟩ := h
  have e1 := fun r => readNum_put k num r k1 k4 hn hn4
  have e2 := fun r => readS_putS 4 (by omega) c hc.1 hc.2 r
  have e3 := fun r => readS_putS 4 (by omega) s hs.1 hs.2 r
  have e4 := fun r => readS_putS 4 (by omega) d hd.1 hd.2 r
  have e5 := fun r => readU_put 1 area.length (by omega) r
  have e6 := fun r => readU_put 1 name.length (by omega) r
  have e7 : read (area.length + name.length) (area ++ (name ++ rest)) = (area ++ name, rest) := by
    rw [← List.append_assoc]; exact read_append _ _ _ (by simp)
  have e8 : (area ++ name).all (· < 128) = true := by
    rw [List.all_eq_true]; intro x hxm; simpa using hx x hxm
  unfold readFontDef
  simp only [e1, e2, e3, e4, e5, e6, e7, Option.bind_eq_bind, Option.bind_some]
  rw [if_pos e8]

theorem readShort_put (cc tfm : Nat) (dvi rest : List Nat) (h : (Item.short cc tfm dvi).WF) :
    readShort dvi.length (put 1 cc ++ (put 3 tfm ++ (dvi ++ rest))) = some (.char cc tfm dvi, rest) := by
  obtain ⟨h1, h2, h3⟩ := h
  have e1 := fun r => readU_put 1 cc (by omega) r
  have e2 := fun r => readU_put 3 tfm (by omega) r
  have e3 : read dvi.length (dvi ++ rest) = (dvi, rest) := read_append _ _ _ rfl
  unfold readShort
  simp only [e1, e2, e3, Option.bind_eq_bind, Option.bind_some]

theorem loop_items (items : List Item) (h : ∀ i ∈ items, i.WF) (hl : ∀ i ∈ items, isLong i = false)
    (post : List Nat) (fuel : Nat) (hf : items.length < fuel) :
    loop fuel ((items.map Item.bytes).flatten ++ 248 :: post) = some (items.map Item.event) := by
  induction items generalizing fuel with
  | nil =>
    cases fuel with
    | zero => simp at hf
    | succ fuel => simp [loop, readU_one]
  | cons i items ih =>
    cases fuel with
    | zero => simp at hf
    | succ fuel =>
      have ih := ih (fun j hj => h j (by simp [hj])) (fun j hj => hl j (by simp [hj])) fuel (by simpa using hf)
      have hi := h i (by simp)
      have hli := hl i (by simp)
      cases i with
      | short cc tfm dvi =>
        have e := readShort_put cc tfm dvi ((items.map Item.bytes).flatten ++ 248 :: post) hi
        obtain ⟨_, _, h3⟩ := hi
        simp only [List.map_cons, List.flatten_cons, Item.bytes, List.cons_append, List.append_assoc] at *
        rw [loop, readU_one]
        simp only
        rw [if_neg (by omega), if_neg (by omega), if_pos h3]
        simp only [e, ih, Option.map_some, Item.event]
      | long cc tfm dvi => cases hli
      | fontdef k num c s d area name =>
        have e := readFontDef_put k num c s d area name ((items.map Item.bytes).flatten ++ 248 :: post) hi
        obtain ⟨k1, k4, _⟩ := hi
        simp only [List.map_cons, List.flatten_cons, Item.bytes, List.cons_append, List.append_assoc] at *
        rw [loop, readU_one]
        simp only
        rw [if_pos (by omega)]
        simp only [e, ih, Option.map_some, Item.event]

theorem items_length (items : List Item) : items.length ≤ ((items.map Item.bytes).flatten).length := by
  induction items with
  | nil => simp
  | cons i items ih =>
    have : 1 ≤ i.bytes.length := by cases i <;> simp [Item.bytes]
    simp only [List.map_cons, List.flatten_cons, List.length_append, List.length_cons]
    omega

/-! ## Property theorems -/

/-- C27, partial: a VF file without long character packets is parsed to exactly its contents. -/
theorem parse_file_partial (comment : List Nat) (cs ds : Nat) (items : List Item) (post : List Nat)
    (hcs : cs < 2 ^ 32) (hds : ds < 2 ^ 32) (h : ∀ i ∈ items, i.WF)
    (hl : ∀ i ∈ items, isLong i = false) :
    parse (file comment cs ds items post) = some (cs, ds, items.map Item.event) := by
  have e1 := fun r => readU_put 4 cs (by omega) r
  have e2 := fun r => readU_put 4 ds (by omega) r
  have e3 : ∀ r, read comment.length (comment ++ r) = (comment, r) := fun r => read_append _ _ _ rfl
  have e4 := loop_items items h hl post (((items.map Item.bytes).flatten ++ 248 :: post).length + 1)
    (by have := items_length items; simp at this ⊢; omega)
  unfold parse file
  simp only [readU_one, Option.bind_eq_bind, Option.bind_some, ne_eq, not_true, if_false, e1, e2, e3, e4]

/-- C27, finding: a long character packet is misread (its width field has four bytes in the format, the code reads three), and
the rest of the file is out of step. -/
theorem parse_long_wrong : ¬ VfCorrect := by
  intro h
  have := h [] 0 0 [.long 65 5 [9]] [] (by decide) (by decide) (by decide)
    (by intro i hi; simp at hi; subst hi; simp [Item.WF])
  revert this; decide

/-- C27, finding: what is read of any long character packet. The code of the character is right; the width lacks its last byte, which becomes
the first command of the packet, and the last byte of the packet is taken for the next command of the file. -/
theorem long_packet (cc tfm : Nat) (dvi rest : List Nat) (last : Nat) (h : (Item.long cc tfm (dvi ++ [last])).WF) :
    readLong ((Item.long cc tfm (dvi ++ [last])).bytes.tail ++ rest) = some (.char cc (tfm / 256) (tfm % 256 :: dvi), last :: rest) := by
  obtain ⟨h1, h2, h3⟩ := h
  have e1 := fun r => readU_put 4 (dvi ++ [last]).length (by omega) r
  have e2 := fun r => readU_put 4 cc (by omega) r
  have e3 := fun r => readU_put 3 (tfm / 256) (by omega) r
  have e4 : ∀ r, put 4 tfm ++ r = put 3 (tfm / 256) ++ (tfm % 256 :: r) := by
    intro r
    rw [put, List.append_assoc]; rfl
  have e5 : read (dvi ++ [last]).length ((tfm % 256 :: dvi) ++ (last :: rest)) = (tfm % 256 :: dvi, last :: rest) := read_append _ _ _ (by simp)
  have e : (Item.long cc tfm (dvi ++ [last])).bytes.tail ++ rest =
      put 4 (dvi ++ [last]).length ++ (put 4 cc ++ (put 3 (tfm / 256) ++ ((tfm % 256 :: dvi) ++ (last :: rest)))) := by
    simp only [Item.bytes, List.tail_cons, List.append_assoc, e4, List.cons_append, List.nil_append]
  rw [e]
  unfold readLong
  simp only [e1, e2, e3, e5, Option.bind_eq_bind, Option.bind_some]

example : (Item.long 65 5 ([9] ++ [7])).WF := by simp [Item.WF]

/-- C27: a character looked up is the packet of the last item defining it. -/
theorem getchar_last (pre : List Event) (cc tfm : Nat) (dvi : List Nat) (suf : List Event)
    (h : ∀ e ∈ suf, ∀ t d, e ≠ .char cc t d) :
    getchar cc (pre ++ .char cc tfm dvi :: suf) = some dvi := by
  have h0 : getchar cc suf = none := by
    induction suf with
    | nil => rfl
    | cons e suf ih =>
      have ih := ih (fun e he => h e (by simp [he]))
      cases e with
      | font _ _ _ _ _ => simpa [getchar] using ih
      | char c t d =>
        have : c ≠ cc := by intro hc; subst hc; exact h _ (by simp) t d rfl
        simp [getchar, ih, this]
  induction pre with
  | nil => simp [getchar, h0]
  | cons e pre ih => cases e <;> simp [getchar, ih]

/-- C27: characters not defined in the file are reported missing. -/
theorem getchar_none (cc : Nat) (evs : List Event) (h : ∀ e ∈ evs, ∀ t d, e ≠ .char cc t d) :
    getchar cc evs = none := by
  induction evs with
  | nil => rfl
  | cons e suf ih =>
    have ih := ih (fun e he => h e (by simp [he]))
    cases e with
    | font _ _ _ _ _ => simpa [getchar] using ih
    | char c t d =>
      have : c ≠ cc := by intro hc; subst hc; exact h _ (by simp) t d rfl
      simp [getchar, ih, this]

/-- Two packets and a font definition with a negative checksum. -/
example : parse (file [86] 7 8 [.fontdef 1 0 (-5) 1048576 655360 [] [99, 109], .short 65 3 [138, 0], .short 65 4 []]
    [248, 248]) = some (7, 8, [.font 0 (-5) 1048576 655360 [99, 109], .char 65 3 [138, 0], .char 65 4 []]) := by
  decide

end PyX.Vf
