import Verif.Pdf.Model
import Verif.Texter.DecimalProps
import Mathlib.Data.List.Basic
import Mathlib.Data.List.Nodup

/-!
# Properties C30 (cross-reference table), C31 (strings), C32 (time zone), C72 (annotations)
-/

set_option linter.unusedSectionVars false

namespace PyX.Pdf
open PyX.Texter (str str_digits str_ne toInt_str toInt_append toInt_zeros AllDigits takeWhile_digits allDigits_append allDigits_zeros)
open PyX.Tick (toInt isDigit)

variable {κ : Type} [DecidableEq κ]

/-! ## C30: registration -/

/-- Each type and id occurs once. -/
def Unique (objects : List (Obj κ)) : Prop := (objects.map Obj.key).Nodup

theorem merge_key (a b : Obj κ) : (a.merge b).key = a.key := by unfold Obj.merge; split <;> rfl

theorem add_keys (objects : List (Obj κ)) (o : Obj κ) :
    (add objects o).map Obj.key = if o.key ∈ objects.map Obj.key then objects.map Obj.key else objects.map Obj.key ++ [o.key] := by
  unfold add
  have hiff : (objects.any fun p => decide (p.key = o.key)) = true ↔ o.key ∈ objects.map Obj.key := by
    simp [List.any_eq_true, List.mem_map]
  by_cases h : o.key ∈ objects.map Obj.key
  · rw [if_pos (hiff.2 h), if_pos h, List.map_map]
    apply List.map_congr_left
    intro p _
    simp only [Function.comp]
    split
    · exact merge_key p o
    · rfl
  · rw [if_neg (fun h' => h (hiff.1 h')), if_neg h]; simp

theorem add_unique (objects : List (Obj κ)) (o : Obj κ) (h : Unique objects) : Unique (add objects o) := by
  unfold Unique at *
  rw [add_keys]
  split
  · exact h
  · rename_i hn
    rw [List.nodup_append]
    exact ⟨h, by simp, by intro a ha b hb; simp at hb; subst hb; exact fun e => hn (e ▸ ha)⟩

theorem add_mem (objects : List (Obj κ)) (o : Obj κ) (k : κ) : k ∈ (add objects o).map Obj.key ↔ k ∈ objects.map Obj.key ∨ k = o.key := by
  rw [add_keys]
  split
  · rename_i h
    constructor
    · exact .inl
    · rintro (h' | rfl)
      · exact h'
      · exact h
  · simp

theorem foldl_add (os objects : List (Obj κ)) (h : Unique objects) :
    Unique (os.foldl add objects) ∧ ∀ k, k ∈ (os.foldl add objects).map Obj.key ↔ k ∈ objects.map Obj.key ∨ k ∈ os.map Obj.key := by
  induction os generalizing objects with
  | nil => exact ⟨h, by simp⟩
  | cons o os ih =>
    obtain ⟨h1, h2⟩ := ih (add objects o) (add_unique objects o h)
    refine ⟨h1, fun k => ?_⟩
    rw [List.foldl_cons, h2, add_mem, List.map_cons, List.mem_cons]
    tauto

/-- The keys of a registration. -/
def Reg.keys : Reg κ → List κ
  | .add o => [o.key]
  | .page os => os.map Obj.key

/-- C30: whatever is registered, directly or through page registries, is there exactly once. -/
theorem registered_spec (rs : List (Reg κ)) :
    Unique (registered rs) ∧ ∀ k, k ∈ (registered rs).map Obj.key ↔ ∃ r ∈ rs, k ∈ r.keys := by
  unfold registered
  suffices gen : ∀ (rs : List (Reg κ)) (objects : List (Obj κ)), Unique objects → Unique (rs.foldl register objects) ∧
      ∀ k, k ∈ (rs.foldl register objects).map Obj.key ↔ k ∈ objects.map Obj.key ∨ ∃ r ∈ rs, k ∈ r.keys by
    obtain ⟨h1, h2⟩ := gen rs [] (by simp [Unique])
    exact ⟨h1, fun k => by rw [h2]; simp⟩
  intro rs
  induction rs with
  | nil => intro objects h; exact ⟨h, by simp⟩
  | cons r rs ih =>
    intro objects h
    rw [List.foldl_cons]
    cases r with
    | add o =>
      obtain ⟨h1, h2⟩ := ih (add objects o) (add_unique objects o h)
      refine ⟨h1, fun k => (h2 k).trans ?_⟩
      rw [add_mem]
      simp [Reg.keys, or_assoc]
    | page os =>
      obtain ⟨p1, p2⟩ := foldl_add os [] (by simp [Unique])
      obtain ⟨m1, m2⟩ := foldl_add (os.foldl add []) objects h
      obtain ⟨h1, h2⟩ := ih (mergeregistry objects (os.foldl add [])) m1
      refine ⟨h1, fun k => (h2 k).trans ?_⟩
      unfold mergeregistry
      rw [m2, p2]
      simp [Reg.keys, or_assoc]

/-- C30: a reference number is the number of the object asked for. -/
theorem getrefno_spec (objects : List (Obj κ)) (h : Unique objects) (k : κ) (n : Nat) :
    getrefno objects k = some n ↔ ∃ (i : ℕ) (o : Obj κ), n = i + 1 ∧ objects[i]? = some o ∧ o.key = k := by
  unfold getrefno
  dsimp only
  constructor
  · intro hx
    split at hx
    · rename_i hlt
      cases hx
      exact ⟨_, _, rfl, List.getElem?_eq_getElem hlt, by simpa using List.findIdx_getElem (w := hlt)⟩
    · cases hx
  · rintro ⟨i, o, rfl, hi, hk⟩
    have hil : i < objects.length := (List.getElem?_eq_some_iff.1 hi).1
    have hio : objects[i] = o := (List.getElem?_eq_some_iff.1 hi).2
    have hex : ∃ x ∈ objects, decide (x.key = k) = true := ⟨o, List.mem_of_getElem? hi, by simpa using hk⟩
    have hlt := List.findIdx_lt_length_of_exists hex
    rw [if_pos hlt]
    have hg : (objects[objects.findIdx fun p => decide (p.key = k)]).key = k := by
      simpa using List.findIdx_getElem (w := hlt)
    have : objects.findIdx (fun p => decide (p.key = k)) = i := by
      have e := List.Nodup.getElem_inj_iff h (i := objects.findIdx fun p => decide (p.key = k)) (j := i)
        (hi := by rw [List.length_map]; exact hlt) (hj := by rw [List.length_map]; exact hil)
      apply e.1
      rw [List.getElem_map, List.getElem_map, hg, hio, hk]
    rw [this]

theorem getrefno_isSome (objects : List (Obj κ)) (k : κ) : (getrefno objects k).isSome ↔ k ∈ objects.map Obj.key := by
  unfold getrefno
  dsimp only
  rw [List.mem_map]
  constructor
  · intro h
    split at h
    · rename_i hlt
      exact ⟨_, List.getElem_mem hlt, by simpa using List.findIdx_getElem (w := hlt)⟩
    · cases h
  · rintro ⟨o, ho, hk⟩
    rw [if_pos (List.findIdx_lt_length_of_exists ⟨o, ho, by simpa using hk⟩)]; rfl

/-! ## C30: positions -/

theorem writeObjs_spec (all os : List (Obj κ)) (n : Nat) (file : List Char) (poses : List Nat) (f : List Char) (ps : List Nat)
    (h : writeObjs all os n file poses = some (f, ps)) :
    ∃ ps', ps = poses ++ ps' ∧ ps'.length = os.length ∧ file <+: f ∧ (∀ p ∈ ps', p ≤ f.length) ∧
      ∀ (i : ℕ) (o : Obj κ), os[i]? = some o → ∃ pos t, ps'[i]? = some pos ∧ objText all o (n + i) = some t ∧ t <+: f.drop pos := by
  induction os generalizing n file poses with
  | nil =>
    simp only [writeObjs, Option.some.injEq, Prod.mk.injEq] at h
    obtain ⟨rfl, rfl⟩ := h
    exact ⟨[], by simp, rfl, List.prefix_rfl, by simp, by simp⟩
  | cons o os ih =>
    rw [writeObjs] at h
    cases ht : objText all o n with
    | none => rw [ht] at h; cases h
    | some t =>
      rw [ht] at h
      obtain ⟨ps', h1, h2, h3, h4, h5⟩ := ih (n + 1) (file ++ t) (poses ++ [file.length]) h
      obtain ⟨rest, hrest⟩ := h3
      refine ⟨file.length :: ps', by rw [h1]; simp, by simp [h2], ⟨t ++ rest, by rw [← hrest]; simp⟩, ?_, ?_⟩
      · intro p hp
        rcases List.mem_cons.1 hp with rfl | hp
        · rw [← hrest]; simp
        · exact h4 p hp
      · intro i o' hi
        cases i with
        | zero =>
          simp at hi; subst hi
          refine ⟨file.length, t, by simp, by simpa using ht, ?_⟩
          rw [← hrest, List.append_assoc, List.drop_left]
          exact List.prefix_append _ _
        | succ i =>
          obtain ⟨pos, t', g1, g2, g3⟩ := h5 i o' (by simpa using hi)
          exact ⟨pos, t', by simpa using g1, by rw [← g2]; congr 1; omega, g3⟩

/-- Specification: a line of 20 bytes of a cross-reference table for an object in use at `pos`. -/
def IsEntry (line : List Char) (pos : Nat) : Prop :=
  ∃ d, AllDigits d ∧ d.length = 10 ∧ toInt d = pos ∧ line = d ++ " 00000 n \n".toList

/-- Specification: the text behind the next line end. -/
def afterNL (s : List Char) : List Char := (s.dropWhile fun c => c ≠ '\n').drop 1

/-- Specification: line `k` of the cross-reference table at `xrefpos` (behind the lines "xref" and "0 n"). -/
def xrefEntry (file : List Char) (xrefpos k : Nat) : List Char :=
  ((afterNL (afterNL (file.drop xrefpos))).drop (20 * k)).take 20

theorem pad10_spec (n : Nat) (h : n < 10 ^ 10) : AllDigits (pad10 n) ∧ (pad10 n).length = 10 ∧ toInt (pad10 n) = n := by
  have hl : (str n).length ≤ 10 := (Nat.length_toDigits_le_iff (by decide) (by decide)).2 h
  refine ⟨allDigits_append (allDigits_zeros _) (str_digits n), ?_, ?_⟩
  · unfold pad10; rw [List.length_append, List.length_replicate]; omega
  · unfold pad10; rw [toInt_append, toInt_zeros, toInt_str]; omega

theorem drop_flatten (m : Nat) (L : List (List Char)) (tail : List Char) (h : ∀ l ∈ L, l.length = m) (k : Nat) (l : List Char)
    (hk : L[k]? = some l) : (((L.flatten ++ tail).drop (m * k)).take m) = l := by
  induction L generalizing k with
  | nil => simp at hk
  | cons x L ih =>
    have hx := h x (by simp)
    cases k with
    | zero =>
      simp at hk; subst hk
      simp only [List.flatten_cons, Nat.mul_zero, List.drop_zero, List.append_assoc]
      rw [← hx, List.take_left]
    | succ k =>
      have e : m * (k + 1) = x.length + m * k := by rw [hx, Nat.mul_succ, Nat.add_comm]
      rw [List.flatten_cons, List.append_assoc, e, List.drop_length_add_append]
      exact ih (fun l hl => h l (by simp [hl])) k (by simpa using hk)

theorem afterNL_append (a b : List Char) (h : '\n' ∉ a) : afterNL (a ++ '\n' :: b) = b := by
  unfold afterNL
  induction a with
  | nil => simp
  | cons x a ih =>
    have hx : x ≠ '\n' := fun e => h (by simp [e])
    rw [List.cons_append, List.dropWhile_cons, if_pos (by simpa using hx)]
    exact ih fun hm => h (by simp [hm])

theorem str_no_nl (n : Nat) : '\n' ∉ str n := fun h => by have := str_digits n _ h; revert this; decide

/-- C30: in the file written, the table found through `startxref` has for each object number the position at which the object with this
number begins, and the numbers written for references are the numbers of the objects referred to. -/
theorem write_spec (objects : List (Obj κ)) (head : List Char) (catalog pdfinfo : κ) (file : List Char)
    (h : write objects head catalog pdfinfo = some file) (hlen : file.length < 10 ^ 10) :
    ∃ xrefpos, ("startxref\n".toList ++ str xrefpos ++ "\n%%EOF\n".toList) <:+ file ∧
      ("xref\n0 ".toList ++ str (objects.length + 1) ++ "\n".toList) <+: file.drop xrefpos ∧
      ∀ (i : ℕ) (o : Obj κ), objects[i]? = some o → ∃ pos nos, IsEntry (xrefEntry file xrefpos (i + 1)) pos ∧
        o.refs.mapM (getrefno objects) = some nos ∧
        (str (i + 1) ++ " 0 obj\n".toList ++ o.body nos ++ "endobj\n".toList) <+: file.drop pos := by
  unfold write at h
  cases hw : writeObjs objects objects 1 head [] with
  | none => rw [hw] at h; cases h
  | some w =>
    obtain ⟨f, ps⟩ := w
    rw [hw] at h
    simp only [Option.bind_eq_bind, Option.bind_some] at h
    cases hr : getrefno objects catalog with
    | none => rw [hr] at h; cases h
    | some root =>
      cases hi : getrefno objects pdfinfo with
      | none => rw [hr, hi] at h; cases h
      | some info =>
        rw [hr, hi] at h
        simp only [Option.bind_some, Option.some.injEq] at h
        obtain ⟨ps', e1, e2, e3, e4, e5⟩ := writeObjs_spec objects objects 1 head [] f ps hw
        simp only [List.nil_append] at e1
        subst e1
        have hfl : f.length ≤ file.length := by rw [← h]; simp only [List.length_append]; omega
        -- the parts of the file
        obtain ⟨rest, hrest⟩ : ∃ rest, file.drop f.length = "xref\n".toList ++ "0 ".toList ++ str (objects.length + 1) ++ "\n".toList ++
            (("0000000000 65535 f \n".toList :: ps.map xrefLine).flatten ++ rest) := by
          refine ⟨("trailer\n<<\n/Size ".toList ++ str (objects.length + 1) ++ "\n/Root ".toList ++ str root ++ " 0 R\n/Info ".toList ++ str info ++
            " 0 R\n>>\n".toList) ++ ("startxref\n".toList ++ str f.length ++ "\n%%EOF\n".toList), ?_⟩
          rw [← h]
          simp only [List.append_assoc, List.drop_left, List.flatten_cons]
        have hxe : ∀ k, xrefEntry file f.length k =
            ((("0000000000 65535 f \n".toList :: ps.map xrefLine).flatten ++ rest).drop (20 * k)).take 20 := by
          intro k
          unfold xrefEntry
          rw [hrest]
          have h1 : "xref\n".toList ++ "0 ".toList ++ str (objects.length + 1) ++ "\n".toList ++
              (("0000000000 65535 f \n".toList :: ps.map xrefLine).flatten ++ rest) =
            "xref".toList ++ '\n' :: (("0 ".toList ++ str (objects.length + 1)) ++ '\n' ::
              (("0000000000 65535 f \n".toList :: ps.map xrefLine).flatten ++ rest)) := by
            simp only [List.append_assoc]; rfl
          rw [h1, afterNL_append _ _ (by decide), afterNL_append]
          intro hm
          rcases List.mem_append.1 hm with hm | hm
          · revert hm; decide
          · exact str_no_nl _ hm
        refine ⟨f.length, ?_, ?_, ?_⟩
        · rw [← h]; exact List.suffix_append _ _
        · rw [hrest]
          exact ⟨("0000000000 65535 f \n".toList :: ps.map xrefLine).flatten ++ rest, rfl⟩
        · intro i o hio
          obtain ⟨pos, t, g1, g2, g3⟩ := e5 i o hio
          have hpos : pos < 10 ^ 10 := lt_of_le_of_lt ((e4 pos (List.mem_of_getElem? g1)).trans hfl) hlen
          obtain ⟨p1, p2, p3⟩ := pad10_spec pos hpos
          cases hn : o.refs.mapM (getrefno objects) with
          | none => rw [objText, hn] at g2; cases g2
          | some nos =>
            rw [objText, hn] at g2
            simp only [Option.bind_eq_bind, Option.bind_some, Option.some.injEq] at g2
            refine ⟨pos, nos, ⟨pad10 pos, p1, p2, p3, ?_⟩, rfl, ?_⟩
            · rw [hxe]
              refine drop_flatten 20 _ rest ?_ (i + 1) _ ?_
              · intro l hl
                rcases List.mem_cons.1 hl with rfl | hl
                · decide
                · obtain ⟨p, hp, rfl⟩ := List.mem_map.1 hl
                  have hp' : p < 10 ^ 10 := lt_of_le_of_lt ((e4 p hp).trans hfl) hlen
                  simp [xrefLine, (pad10_spec p hp').2.1]
              · simp [g1, xrefLine]
            · rw [show i + 1 = 1 + i by omega, g2]
              refine g3.trans ?_
              have : f.drop pos <+: file.drop pos := by
                rw [← h]
                rw [List.append_assoc, List.append_assoc, List.drop_append_of_le_length (e4 pos (List.mem_of_getElem? g1))]
                exact List.prefix_append _ _
              exact this

/-- C30: every number written for a reference is the number of the object referred to. -/
theorem refs_resolve (objects : List (Obj κ)) (hu : Unique objects) (refs : List κ) (nos : List Nat)
    (h : refs.mapM (getrefno objects) = some nos) (j : ℕ) (k : κ) (hj : refs[j]? = some k) :
    ∃ (i : ℕ) (o : Obj κ), nos[j]? = some (i + 1) ∧ objects[i]? = some o ∧ o.key = k := by
  induction refs generalizing nos j with
  | nil => simp at hj
  | cons r refs ih =>
    rw [List.mapM_cons] at h
    cases hr : getrefno objects r with
    | none => rw [hr] at h; cases h
    | some n =>
      cases hm : refs.mapM (getrefno objects) with
      | none => rw [hr, hm] at h; cases h
      | some ns =>
        rw [hr, hm] at h
        simp only [Option.bind_eq_bind, Option.bind_some, Option.pure_def, Option.some.injEq] at h
        subst h
        cases j with
        | zero =>
          simp at hj; subst hj
          obtain ⟨i, o, rfl, h1, h2⟩ := (getrefno_spec objects hu r n).1 hr
          exact ⟨i, o, by simp, h1, h2⟩
        | succ j =>
          obtain ⟨i, o, h1, h2⟩ := ih ns hm j (by simpa using hj)
          exact ⟨i, o, by simpa using h1, h2⟩

/-- C30: writing succeeds if everything referred to is registered. -/
theorem write_total (objects : List (Obj κ)) (head : List Char) (catalog pdfinfo : κ)
    (hrefs : ∀ o ∈ objects, ∀ k ∈ o.refs, k ∈ objects.map Obj.key) (hc : catalog ∈ objects.map Obj.key) (hp : pdfinfo ∈ objects.map Obj.key) :
    (write objects head catalog pdfinfo).isSome := by
  have hm : ∀ (l : List κ), (∀ k ∈ l, k ∈ objects.map Obj.key) → ∃ nos, l.mapM (getrefno objects) = some nos := by
    intro l
    induction l with
    | nil => intro _; exact ⟨[], rfl⟩
    | cons k l ih =>
      intro h
      obtain ⟨nos, hn⟩ := ih fun k hk => h k (by simp [hk])
      obtain ⟨n, hk⟩ := Option.isSome_iff_exists.1 ((getrefno_isSome objects k).2 (h k (by simp)))
      exact ⟨n :: nos, by rw [List.mapM_cons, hk, hn]; rfl⟩
  have hw : ∀ (os : List (Obj κ)) (n : Nat) (file : List Char) (poses : List Nat), (∀ o ∈ os, o ∈ objects) →
      ∃ r, writeObjs objects os n file poses = some r := by
    intro os
    induction os with
    | nil => intro n file poses _; exact ⟨_, rfl⟩
    | cons o os ih =>
      intro n file poses h
      obtain ⟨nos, hn⟩ := hm o.refs (hrefs o (h o (by simp)))
      obtain ⟨r, hr⟩ := ih (n + 1) (file ++ (str n ++ " 0 obj\n".toList ++ o.body nos ++ "endobj\n".toList)) (poses ++ [file.length])
        fun o' ho => h o' (by simp [ho])
      exact ⟨r, by rw [writeObjs, objText, hn]; exact hr⟩
  obtain ⟨r, hr⟩ := hw objects 1 head [] fun _ h => h
  obtain ⟨root, hroot⟩ := Option.isSome_iff_exists.1 ((getrefno_isSome objects catalog).2 hc)
  obtain ⟨info, hinfo⟩ := Option.isSome_iff_exists.1 ((getrefno_isSome objects pdfinfo).2 hp)
  unfold write
  rw [hr, hroot, hinfo]
  rfl

/-- Concrete case: pages, page, content, catalog, info. -/
example : (write (registered [.page [⟨1, [2, 3], fun n => str (n.headD 0), false⟩, ⟨3, [], fun _ => "stream".toList, false⟩],
    .add ⟨2, [1], fun _ => [], false⟩, .add ⟨4, [2], fun _ => [], false⟩, .add ⟨5, [], fun _ => [], false⟩]) "%PDF".toList 4 5).isSome ∧
    getrefno (registered [.page [⟨1, [2, 3], fun n => str (n.headD 0), false⟩, ⟨3, [], fun _ => "stream".toList, false⟩],
    .add ⟨2, [1], fun _ => [], false⟩, .add ⟨4, [2], fun _ => [], false⟩, .add ⟨5, [], fun _ => [], false⟩]) 4 = some 4 := by
  decide +kernel

/-! ## C72: annotations -/

/-- The object for annotations (`pyx/pdfwriter.py:208-219`): always the same type and id. -/
def annotations (annots : List κ) (key : κ) : Obj κ := ⟨key, annots, fun nos => (nos.map fun n => ' ' :: str n).flatten, true⟩

/-- C72 is violated: two pages with one annotation each; both pages refer (by its key) to the one annotations object, which lists
both annotations. -/
theorem annotations_shared : ∃ o ∈ registered [.page [⟨10, [12], fun _ => [], false⟩, ⟨11, [], fun _ => [], false⟩, annotations [11] 0, ⟨12, [], fun _ => [], false⟩],
    .page [⟨20, [22], fun _ => [], false⟩, ⟨21, [], fun _ => [], false⟩, annotations [21] 0, ⟨22, [], fun _ => [], false⟩]],
    o.key = 0 ∧ o.refs = [11, 21] := by
  decide +kernel

theorem refs_add (objects : List (Obj κ)) (o : Obj κ) (hu : Unique objects) (k : κ) (hk : ∀ p ∈ objects, p.key = k → p.merges = true) :
    ((add objects o).filter fun p => decide (p.key = k)).flatMap Obj.refs =
      (objects.filter fun p => decide (p.key = k)).flatMap Obj.refs ++ (if o.key = k then o.refs else []) := by
  unfold add
  by_cases hany : (objects.any fun p => decide (p.key = o.key)) = true
  · rw [if_pos hany]
    induction objects with
    | nil => simp at hany
    | cons p ps ih =>
      have hup : Unique ps := (List.nodup_cons.1 hu).2
      have hnot : p.key ∉ ps.map Obj.key := (List.nodup_cons.1 hu).1
      by_cases hp : p.key = o.key
      · -- no other one
        have hrest : (ps.map fun q => if q.key = o.key then q.merge o else q) = ps := by
          conv_rhs => rw [← List.map_id ps]
          apply List.map_congr_left
          intro q hq
          rw [if_neg]; rfl
          intro e
          exact hnot (List.mem_map.2 ⟨q, hq, by rw [e, hp]⟩)
        rw [List.map_cons, if_pos hp, hrest]
        by_cases hpk : p.key = k
        · have hnone : ps.filter (fun q => decide (q.key = k)) = [] := by
            rw [List.filter_eq_nil_iff]
            intro q hq
            simp only [decide_eq_true_eq]
            intro e
            exact hnot (List.mem_map.2 ⟨q, hq, by rw [e, hpk]⟩)
          have hm := hk p (by simp) hpk
          rw [List.filter_cons_of_pos (by simpa [merge_key] using hpk), List.filter_cons_of_pos (by simpa using hpk), hnone,
            if_pos (by rw [← hp]; exact hpk)]
          simp [Obj.merge, hm]
        · rw [List.filter_cons_of_neg (by simpa [merge_key] using hpk), List.filter_cons_of_neg (by simpa using hpk),
            if_neg (by rw [← hp]; exact hpk), List.append_nil]
      · rw [List.map_cons, if_neg hp]
        have hany' : (ps.any fun q => decide (q.key = o.key)) = true := by simpa [hp] using hany
        have := ih hup (fun q hq => hk q (by simp [hq])) hany'
        by_cases hpk : p.key = k
        · rw [List.filter_cons_of_pos (by simpa using hpk), List.filter_cons_of_pos (by simpa using hpk), List.flatMap_cons,
            List.flatMap_cons, this, List.append_assoc]
        · rw [List.filter_cons_of_neg (by simpa using hpk), List.filter_cons_of_neg (by simpa using hpk), this]
  · rw [if_neg hany, List.filter_append, List.flatMap_append]
    congr 1
    by_cases h : o.key = k
    · simp [h]
    · simp [h]

/-- C72 (part): for a document with one page (a single registry), the annotations object lists exactly the annotations added, in order. -/
theorem annotations_partial (os : List (Obj κ)) (k : κ) (h : ∀ o ∈ os, o.key = k → o.merges = true) :
    ((os.foldl add []).filter fun p => decide (p.key = k)).flatMap Obj.refs = (os.filter fun p => decide (p.key = k)).flatMap Obj.refs := by
  suffices gen : ∀ (os objects : List (Obj κ)), Unique objects → (∀ o ∈ os, o.key = k → o.merges = true) →
      (∀ p ∈ objects, p.key = k → p.merges = true) →
      ((os.foldl add objects).filter fun p => decide (p.key = k)).flatMap Obj.refs =
        (objects.filter fun p => decide (p.key = k)).flatMap Obj.refs ++ (os.filter fun p => decide (p.key = k)).flatMap Obj.refs by
    simpa using gen os [] (by simp [Unique]) h (by simp)
  intro os
  induction os with
  | nil => intro objects _ _ _; simp
  | cons o os ih =>
    intro objects hu ho hp
    rw [List.foldl_cons, ih (add objects o) (add_unique objects o hu) (fun o' h' => ho o' (by simp [h'])), refs_add objects o hu k hp]
    · by_cases h : o.key = k
      · simp [h]
      · simp [h]
    · intro p hpm hpk
      unfold add at hpm
      split at hpm
      · obtain ⟨q, hq, e⟩ := List.mem_map.1 hpm
        by_cases hqo : q.key = o.key
        · rw [if_pos hqo] at e
          subst e
          rw [merge_key] at hpk
          have := hp q hq hpk
          unfold Obj.merge; split <;> exact this
        · rw [if_neg hqo] at e; subst e; exact hp q hq hpk
      · rcases List.mem_append.1 hpm with hm | hm
        · exact hp p hm hpk
        · simp at hm; subst hm; exact ho p (by simp) hpk

/-! ## C31 -/

def isOct (c : Char) : Bool := '0' ≤ c && c ≤ '7'

def octVal (s : List Char) : Nat := s.foldl (fun a c => 8 * a + (c.toNat - 48)) 0

/-- Specification: escapes other than octal ones: the codes denoted and the rest. -/
def escape : List Char → Option (List Nat × List Char)
  | 'n' :: s => some ([10], s)
  | 'r' :: s => some ([13], s)
  | 't' :: s => some ([9], s)
  | 'b' :: s => some ([8], s)
  | 'f' :: s => some ([12], s)
  | '\r' :: '\n' :: s => some ([], s)
  | '\n' :: s => some ([], s)
  | '\r' :: s => some ([], s)
  | x :: s => some ([x.toNat], s)
  | [] => none

/-- Specification: the rest behind a carriage return, which may be followed by a line feed. -/
def afterCR : List Char → List Char
  | '\n' :: s => s
  | s => s

/-- Specification: reading a PDF literal string behind its opening parenthesis, with the number of open parentheses (PDF reference,
section on literal strings): escapes with up to three octal digits (overflow ignored), the named escapes, a backslash at the line end;
other backslashes are dropped; an end of line is read as code 10; balanced parentheses belong to the string. Result: codes
and the rest of the file. -/
def readLit : (fuel : Nat) → List Char → (depth : Nat) → (acc : List Nat) → Option (List Nat × List Char)
  | 0, _, _, _ => none
  | _ + 1, [], _, _ => none
  | fuel + 1, c :: s, depth, acc =>
    if c = ')' then (if depth = 0 then some (acc, s) else readLit fuel s (depth - 1) (acc ++ [41]))
    else if c = '(' then readLit fuel s (depth + 1) (acc ++ [40])
    else if c = '\\' then
      if (s.take 3).takeWhile isOct ≠ [] then
        readLit fuel (s.drop ((s.take 3).takeWhile isOct).length) depth (acc ++ [octVal ((s.take 3).takeWhile isOct) % 256])
      else (escape s).bind fun e => readLit fuel e.2 depth (acc ++ e.1)
    else if c = '\r' then readLit fuel (afterCR s) depth (acc ++ [10])
    else readLit fuel s depth (acc ++ [c.toNat])

theorem oct3_spec (c : Fin 256) : (oct3 c).length = 3 ∧ (oct3 c).all isOct = true ∧ octVal (oct3 c) = c := by
  revert c; decide +kernel

theorem plain_char (c : Fin 128) (h : 32 ≤ c.val ∧ Char.ofNat c ∉ "()[]<>\\".toList) :
    Char.ofNat c ≠ ')' ∧ Char.ofNat c ≠ '(' ∧ Char.ofNat c ≠ '\\' ∧ Char.ofNat c ≠ '\r' ∧ (Char.ofNat c).toNat = c := by
  revert c; decide +kernel

theorem takeWhile_all (p : Char → Bool) (l : List Char) (h : l.all p = true) : l.takeWhile p = l := by
  induction l with
  | nil => rfl
  | cons a l ih =>
    simp only [List.all_cons, Bool.and_eq_true] at h
    simp [h.1, ih h.2]

/-- C31: a text of byte-range characters is read back unchanged. -/
theorem pdfstring_roundtrip (s : List Nat) (hs : ∀ c ∈ s, c < 256) (rest : List Char) (acc : List Nat) (fuel : Nat) (hf : s.length < fuel) :
    readLit fuel (pdfstring s ++ ')' :: rest) 0 acc = some (acc ++ s, rest) := by
  induction s generalizing fuel acc with
  | nil =>
    cases fuel with
    | zero => simp at hf
    | succ fuel => simp [pdfstring, readLit]
  | cons c s ih =>
    cases fuel with
    | zero => simp at hf
    | succ fuel =>
      have hf' : s.length < fuel := by simpa using hf
      have hc := hs c (by simp)
      have ih' := fun acc => ih (fun x hx => hs x (by simp [hx])) acc fuel hf'
      have e : pdfstring (c :: s) = (if 32 ≤ c ∧ c ≤ 127 ∧ Char.ofNat c ∉ "()[]<>\\".toList then [Char.ofNat c] else '\\' :: oct3 c) ++
          pdfstring s := rfl
      rw [e]
      by_cases hp : 32 ≤ c ∧ c ≤ 127 ∧ Char.ofNat c ∉ "()[]<>\\".toList
      · rw [if_pos hp]
        obtain ⟨h1, h2, h3, h4, h5⟩ := plain_char ⟨c, by omega⟩ ⟨hp.1, hp.2.2⟩
        dsimp only at h1 h2 h3 h4 h5
        rw [List.cons_append, List.nil_append, List.cons_append, readLit, if_neg h1, if_neg h2, if_neg h3, if_neg h4, h5, ih']
        simp
      · rw [if_neg hp]
        obtain ⟨h1, h2, h3⟩ := oct3_spec ⟨c, hc⟩
        dsimp only at h1 h2 h3
        have ht : (oct3 c ++ pdfstring s ++ ')' :: rest).take 3 = oct3 c := by
          rw [← h1, List.append_assoc, List.take_left]
        have ho : (List.take 3 (oct3 c ++ pdfstring s ++ ')' :: rest)).takeWhile isOct = oct3 c := by
          rw [ht]; exact takeWhile_all _ _ h2
        have hne : oct3 c ≠ [] := by intro h0; rw [h0] at h1; simp at h1
        have hd : (oct3 c ++ pdfstring s ++ ')' :: rest).drop (oct3 c).length = pdfstring s ++ ')' :: rest := by
          rw [List.append_assoc, List.drop_left]
        rw [List.cons_append, List.cons_append, readLit, if_neg (by decide), if_neg (by decide), if_pos rfl]
        rw [ho, if_pos hne, hd, h3, Nat.mod_eq_of_lt hc, ih']
        simp

/-- Concrete case. -/
example : pdfstring ("a(b)\\\n".toList.map Char.toNat) = "a\\050b\\051\\134\\012".toList := by decide +kernel

/-- Characters beyond the byte range are not kept: a Euro sign is read as a byte and a digit. -/
theorem pdfstring_large : pdfstring [0x20ac] = "\\20254".toList ∧ readLit 10 "\\20254)".toList 0 [] = some ([130, 53, 52], []) := by
  decide +kernel

/-! ## C32 -/

/-- Specification: the offset of local time from UTC in minutes denoted by the suffix of a PDF date (`+`: local time is
later than UTC). -/
def readZone : List Char → Option Int
  | c :: s =>
    let h := s.takeWhile isDigit
    let r := (s.dropWhile isDigit).drop 1
    let m := r.takeWhile isDigit
    if c = 'Z' then some 0
    else if c = '+' then some ((60 * toInt h + toInt m : ℕ) : Int)
    else if c = '-' then some (-((60 * toInt h + toInt m : ℕ) : Int)) else none
  | [] => none

theorem pad2_spec (n : Nat) : AllDigits (pad2 n) ∧ toInt (pad2 n) = n := by
  refine ⟨allDigits_append (allDigits_zeros _) (str_digits n), ?_⟩
  unfold pad2; rw [toInt_append, toInt_zeros, toInt_str]; omega

/-- What is written: the seconds west of UTC with their sign. -/
theorem timezone_read (tz : Int) (h : 60 ∣ tz) : readZone (timezone tz) = some (tz / 60) := by
  have key : ∀ m : Nat, ∀ c : Char, (c = '+' ∨ c = '-') → readZone (c :: (pad2 (m / 60) ++ ['\''] ++ pad2 (m % 60) ++ ['\''])) =
      if c = '+' then some (m : Int) else some (-(m : Int)) := by
    intro m c hc
    have h1 := takeWhile_digits (pad2 (m / 60)) ('\'' :: (pad2 (m % 60) ++ ['\''])) (pad2_spec _).1 (by simp; decide)
    have h2 := takeWhile_digits (pad2 (m % 60)) ['\''] (pad2_spec _).1 (by simp; decide)
    have e : pad2 (m / 60) ++ ['\''] ++ pad2 (m % 60) ++ ['\''] = pad2 (m / 60) ++ '\'' :: (pad2 (m % 60) ++ ['\'']) := by simp
    have em : 60 * (m / 60) + m % 60 = m := Nat.div_add_mod m 60
    rw [e]
    rcases hc with rfl | rfl
    · simp only [readZone, h1.1, h1.2, List.drop_succ_cons, List.drop_zero, h2.1, (pad2_spec _).2, em, if_true]
      rfl
    · simp only [readZone, h1.1, h1.2, List.drop_succ_cons, List.drop_zero, h2.1, (pad2_spec _).2, em, if_true]
      rfl
  unfold timezone
  dsimp only
  by_cases hn : tz < 0
  · rw [if_pos hn, key _ _ (.inr rfl), if_neg (by decide)]
    congr 1
    omega
  · rw [if_neg hn]
    by_cases hp : tz > 0
    · rw [if_pos hp, key _ _ (.inl rfl), if_pos rfl]
      congr 1
      omega
    · have : tz = 0 := by omega
      subst this
      rfl

/-- C32 is violated for every zone other than UTC: the true offset of local time is `-tz` seconds, but the opposite is written. -/
theorem timezone_wrong (tz : Int) (h : 60 ∣ tz) (h0 : tz ≠ 0) : readZone (timezone tz) ≠ some (-tz / 60) := by
  rw [timezone_read tz h]
  intro e
  simp only [Option.some.injEq] at e
  omega

/-- C32 (part): the amount is right, and UTC is right. -/
theorem timezone_partial (tz : Int) (h : 60 ∣ tz) : ∃ z, readZone (timezone tz) = some z ∧ z.natAbs = (-tz / 60).natAbs := by
  exact ⟨_, timezone_read tz h, by omega⟩

/-- Concrete case: Central European Time (one hour east of UTC) is written as one hour west. -/
example : timezone (-3600) = "-01'00'".toList := by decide +kernel

end PyX.Pdf
