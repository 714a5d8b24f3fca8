import Mathlib.Data.List.Basic
import Mathlib.Logic.Function.Basic
import Mathlib.Data.List.Pairwise
import Mathlib.Tactic.Common

/-!
# C169: the supplementary files of TeX (`pyx/text.py:1047-1059, 1162-1167`)

The files named by `usefiles` are moved to the temporary directory when TeX is started and are moved back when it is finished. Only the contents of plain files are modelled; all moves and removals which the file system allows for plain files succeed.
-/

set_option linter.unusedSectionVars false
set_option linter.unusedSimpArgs false

namespace PyX.Text.UseFiles

abbrev Name := List Char

variable {C : Type}

/-- The files of the user and those of the temporary directory. -/
structure FS (C : Type) where
  user : Name → Option C
  tmp : Name → Option C

/-- `usefile[usefile.rfind("."):]` (`text.py:1048, 1163`); without a dot `rfind` gives `-1` and this is the last character. -/
def ext (n : Name) : Name :=
  if '.' ∈ n then '.' :: (n.reverse.takeWhile (· ≠ '.')).reverse else n.drop (n.length - 1)

/-- The name in the temporary directory (`text.py:1050, 1165`). -/
def target (n : Name) : Name := "texput".toList ++ ext n

/-- Whether the target is directly in the temporary directory, as there are no further directories in it. -/
def valid (n : Name) : Bool := !(ext n).contains '/'

/-- Moving a file to the temporary directory (`text.py:1162-1167`). `os.rename` does not move files between file systems, and its errors are ignored. -/
def fetch (sameDevice : Bool) (fs : FS C) (n : Name) : FS C :=
  if sameDevice && valid n then
    match fs.user n with
    | some c => ⟨Function.update fs.user n none, Function.update fs.tmp (target n) (some c)⟩
    | none => fs
  else fs

/-- Moving a file back (`text.py:1047-1057`). When there is no file to be moved, the file of the user is removed. -/
def save (fs : FS C) (n : Name) : FS C :=
  if valid n then
    match fs.tmp (target n) with
    | some c => ⟨Function.update fs.user n (some c), Function.update fs.tmp (target n) none⟩
    | none => ⟨Function.update fs.user n none, fs.tmp⟩
  else ⟨Function.update fs.user n none, fs.tmp⟩

/-- The temporary directory as TeX is started (`text.py:1160-1167`). -/
def start (sameDevice : Bool) (files : List Name) (user : Name → Option C) : FS C :=
  files.foldl (fetch sameDevice) ⟨user, fun _ => none⟩

/-- A whole run: `do_start`, what TeX does in the temporary directory, and `_cleanup` (`text.py:1025-1059, 1149-1167`). -/
def run (sameDevice : Bool) (tex : (Name → Option C) → Name → Option C) (files : List Name) (user : Name → Option C) : Name → Option C :=
  let fs := start sameDevice files user
  (files.foldl save ⟨fs.user, tex fs.tmp⟩).user

/-- C169: the extension is what follows the last dot, with the dot. -/
theorem ext_dot (n : Name) (h : '.' ∈ n) : ∃ stem r, n = stem ++ ext n ∧ ext n = '.' :: r ∧ '.' ∉ r := by
  have e : ext n = '.' :: (n.reverse.takeWhile (· ≠ '.')).reverse := if_pos h
  have d : ∀ l : Name, '.' ∈ l → ∃ r, l = l.takeWhile (· ≠ '.') ++ '.' :: r := by
    intro l
    induction l with
    | nil => intro h; cases h
    | cons c l ih =>
      intro h
      by_cases k : c = '.'
      · subst k; exact ⟨l, by simp⟩
      · rcases List.mem_cons.1 h with h | h
        · exact absurd h.symm k
        · obtain ⟨r, hr⟩ := ih h
          exact ⟨r, by rw [List.takeWhile_cons_of_pos (by simpa using k), List.cons_append, ← hr]⟩
  obtain ⟨r, hr⟩ := d n.reverse (by simpa using h)
  refine ⟨r.reverse, _, ?_, e, ?_⟩
  · rw [e]
    have := congrArg List.reverse hr
    simpa using this
  · intro m
    have no : ∀ l : Name, '.' ∉ l.takeWhile (· ≠ '.') := by
      intro l
      induction l with
      | nil => simp
      | cons c l ih =>
        by_cases k : c = '.'
        · subst k; simp
        · rw [List.takeWhile_cons_of_pos (by simpa using k), List.mem_cons, not_or]
          exact ⟨fun e => k e.symm, ih⟩
    exact no _ (List.mem_reverse.1 m)

/-! ## Starting -/

theorem fetch_user_other (sd : Bool) (fs : FS C) (n m : Name) (h : m ≠ n) : (fetch sd fs n).user m = fs.user m := by
  unfold fetch
  by_cases c : (sd && valid n) = true
  · rw [if_pos c]
    cases e : fs.user n with
    | none => rfl
    | some x => exact Function.update_of_ne h _ _
  · rw [if_neg c]

theorem fetch_tmp_other (sd : Bool) (fs : FS C) (n : Name) (m : Name) (h : m ≠ target n) : (fetch sd fs n).tmp m = fs.tmp m := by
  unfold fetch
  by_cases c : (sd && valid n) = true
  · rw [if_pos c]
    cases e : fs.user n with
    | none => rfl
    | some x => exact Function.update_of_ne h _ _
  · rw [if_neg c]

theorem start_user_other (sd : Bool) (files : List Name) (m : Name) (h : m ∉ files) :
    ∀ fs : FS C, (files.foldl (fetch sd) fs).user m = fs.user m := by
  induction files with
  | nil => intro fs; rfl
  | cons n l ih =>
    intro fs
    rw [List.mem_cons, not_or] at h
    rw [List.foldl_cons, ih h.2, fetch_user_other sd fs n m h.1]

theorem start_tmp_other (sd : Bool) (files : List Name) (m : Name) (h : ∀ n ∈ files, m ≠ target n) :
    ∀ fs : FS C, (files.foldl (fetch sd) fs).tmp m = fs.tmp m := by
  induction files with
  | nil => intro fs; rfl
  | cons n l ih =>
    intro fs
    rw [List.foldl_cons, ih (fun k hk => h k (List.mem_cons_of_mem _ hk)), fetch_tmp_other sd fs n m (h n List.mem_cons_self)]

/-- The names have different extensions. -/
def Different (files : List Name) : Prop := files.Pairwise fun a b => ext a ≠ ext b

theorem target_inj {a b : Name} (h : target a = target b) : ext a = ext b := List.append_cancel_left h

/-- C169: TeX finds the content of each file under the name `texput` with the extension of the file, provided the files are on the file system of the temporary directory and have different extensions … -/
theorem seen_partial (files : List Name) (user : Name → Option C) (n : Name) (hn : n ∈ files) (hd : Different files) (hv : valid n = true) :
    (start true files user).tmp (target n) = user n := by
  have key : ∀ fs : FS C, fs.tmp (target n) = none → (files.foldl (fetch true) fs).tmp (target n) = fs.user n := by
    induction files with
    | nil => cases hn
    | cons k l ih =>
      intro fs hf
      unfold Different at hd
      rw [List.pairwise_cons] at hd
      rw [List.foldl_cons]
      rcases List.mem_cons.1 hn with rfl | hn
      · rw [start_tmp_other true l (target n) (fun k hk e => hd.1 k hk (target_inj e))]
        unfold fetch
        rw [if_pos (by simp [hv])]
        cases e : fs.user n with
        | none => exact hf
        | some x => exact Function.update_self _ _ _
      · have ne : ext k ≠ ext n := hd.1 n hn
        rw [ih hn hd.2 _ (by rw [fetch_tmp_other true fs k _ (fun e => ne (target_inj e).symm)]; exact hf),
          fetch_user_other true fs k n (fun e => ne (by rw [e]))]
  exact key _ rfl

/-- … on another file system TeX does not find any of them. -/
theorem seen_device (files : List Name) (user : Name → Option C) : start false files user = ⟨user, fun _ => none⟩ := by
  unfold start
  generalize (⟨user, fun _ => none⟩ : FS C) = fs
  induction files generalizing fs with
  | nil => rfl
  | cons n l ih => rw [List.foldl_cons, ih]; rfl

/-! ## Finishing -/

theorem save_user_other (fs : FS C) (n m : Name) (h : m ≠ n) : (save fs n).user m = fs.user m := by
  unfold save
  by_cases c : valid n = true
  · rw [if_pos c]
    cases e : fs.tmp (target n) with
    | none => exact Function.update_of_ne h _ _
    | some x => exact Function.update_of_ne h _ _
  · rw [if_neg c]; exact Function.update_of_ne h _ _

theorem save_tmp_other (fs : FS C) (n m : Name) (h : m ≠ target n) : (save fs n).tmp m = fs.tmp m := by
  unfold save
  by_cases c : valid n = true
  · rw [if_pos c]
    cases e : fs.tmp (target n) with
    | none => rfl
    | some x => exact Function.update_of_ne h _ _
  · rw [if_neg c]

theorem save_all_other (files : List Name) (m : Name) (h : m ∉ files) : ∀ fs : FS C, (files.foldl save fs).user m = fs.user m := by
  induction files with
  | nil => intro fs; rfl
  | cons n l ih =>
    intro fs
    rw [List.mem_cons, not_or] at h
    rw [List.foldl_cons, ih h.2, save_user_other fs n m h.1]

/-- C169: other files are not changed. -/
theorem others (sd : Bool) (tex : (Name → Option C) → Name → Option C) (files : List Name) (user : Name → Option C) (m : Name) (h : m ∉ files) :
    run sd tex files user m = user m := by
  unfold run
  rw [save_all_other files m h]
  exact start_user_other sd files m h _

/-- C169: at the end each file has what TeX has left under its name, provided the files have different extensions. -/
theorem saved_partial (sd : Bool) (tex : (Name → Option C) → Name → Option C) (files : List Name) (user : Name → Option C) (n : Name)
    (hn : n ∈ files) (hd : Different files) (hv : valid n = true) :
    run sd tex files user n = tex (start sd files user).tmp (target n) := by
  unfold run
  have key : ∀ fs : FS C, (files.foldl save fs).user n = fs.tmp (target n) := by
    induction files with
    | nil => cases hn
    | cons k l ih =>
      intro fs
      unfold Different at hd
      rw [List.pairwise_cons] at hd
      rw [List.foldl_cons]
      rcases List.mem_cons.1 hn with rfl | hn
      · rw [save_all_other l n (fun k => hd.1 n k rfl)]
        unfold save
        rw [if_pos hv]
        cases e : fs.tmp (target n) with
        | none => exact Function.update_self _ _ _
        | some x => exact Function.update_self _ _ _
      · have ne : ext k ≠ ext n := hd.1 n hn
        rw [ih hn hd.2, save_tmp_other fs k _ (fun e => ne (target_inj e).symm)]
  exact key _

/-- C169: a file which TeX does not change is the same at the end, provided it is on the file system of the temporary directory and the extensions are different. -/
theorem kept_partial (tex : (Name → Option C) → Name → Option C) (files : List Name) (user : Name → Option C) (n : Name)
    (hn : n ∈ files) (hd : Different files) (hv : valid n = true) (ht : ∀ tmp, tex tmp (target n) = tmp (target n)) :
    run true tex files user n = user n := by
  rw [saved_partial true tex files user n hn hd hv, ht, seen_partial files user n hn hd hv]

/-- C169: what a first run of TeX leaves is found by the next one. -/
theorem next_run (tex : (Name → Option C) → Name → Option C) (files : List Name) (user : Name → Option C) (n : Name)
    (hn : n ∈ files) (hd : Different files) (hv : valid n = true) :
    (start true files (run true tex files user)).tmp (target n) = tex (start true files user).tmp (target n) := by
  rw [seen_partial files _ n hn hd hv, saved_partial true tex files user n hn hd hv]

/-! ## What does not hold -/

theorem save_gone (files : List Name) (n : Name) (hn : n ∈ files) :
    ∀ fs : FS C, (valid n = true → fs.tmp (target n) = none) → (files.foldl save fs).user n = none := by
  induction files with
  | nil => cases hn
  | cons k l ih =>
    intro fs hf
    have stays : valid n = true → (save fs k).tmp (target n) = none := by
      intro v
      by_cases e : target n = target k
      · unfold save
        by_cases c : valid k = true
        · rw [if_pos c, ← e, hf v]; exact hf v
        · rw [if_neg c]; exact hf v
      · rw [save_tmp_other fs k _ e]; exact hf v
    rw [List.foldl_cons]
    by_cases m : n ∈ l
    · exact ih m _ stays
    · rw [save_all_other l n m]
      rcases List.mem_cons.1 hn with rfl | h
      · unfold save
        by_cases c : valid n = true
        · rw [if_pos c, hf c]; exact Function.update_self _ _ _
        · rw [if_neg c]; exact Function.update_self _ _ _
      · exact absurd h m

/-- C169, what does not hold: a file on another file system than the temporary directory is lost, unless TeX writes a file with its extension. -/
theorem lost_device (tex : (Name → Option C) → Name → Option C) (files : List Name) (user : Name → Option C) (n : Name) (hn : n ∈ files)
    (ht : tex (fun _ => none) (target n) = none) : run false tex files user n = none := by
  unfold run
  rw [seen_device]
  exact save_gone files n hn _ (fun _ => ht)

/-- C169, what does not hold: a file with a slash after the last dot of its path, like `../refs`, is lost, whatever TeX does. -/
theorem lost_path (sd : Bool) (tex : (Name → Option C) → Name → Option C) (files : List Name) (user : Name → Option C) (n : Name) (hn : n ∈ files)
    (hv : valid n = false) : run sd tex files user n = none := by
  unfold run
  exact save_gone files n hn _ (fun v => by rw [hv] at v; cases v)

/-- C169, what does not hold: of two existing files with the same extension the content of the first one is lost, and the first one gets the content of the second one, even when TeX does not do anything. -/
theorem lost_extension (a b : Name) (x y : C) (user : Name → Option C) (hab : a ≠ b) (he : ext a = ext b) (hv : valid a = true)
    (ha : user a = some x) (hb : user b = some y) :
    run true (fun tmp => tmp) [a, b] user a = some y ∧ run true (fun tmp => tmp) [a, b] user b = none := by
  have ht : target a = target b := by unfold target; rw [he]
  have hv' : valid b = true := by unfold valid at *; rw [← he]; exact hv
  have e1 : fetch true ⟨user, fun _ => none⟩ a = (⟨Function.update user a none, Function.update (fun _ => none) (target a) (some x)⟩ : FS C) := by
    unfold fetch
    rw [if_pos (by simp [hv])]
    dsimp only
    rw [ha]
  have e2 : start true [a, b] user = ⟨Function.update (Function.update user a none) b none,
      Function.update (Function.update (fun _ => none) (target a) (some x)) (target b) (some y)⟩ := by
    unfold start
    rw [List.foldl_cons, List.foldl_cons, List.foldl_nil, e1]
    unfold fetch
    rw [if_pos (by simp [hv'])]
    dsimp only
    rw [Function.update_of_ne hab.symm, hb]
  unfold run
  rw [e2]
  dsimp only
  rw [List.foldl_cons, List.foldl_cons, List.foldl_nil]
  have e3 : save (⟨Function.update (Function.update user a none) b none,
      Function.update (Function.update (fun _ => none) (target a) (some x)) (target b) (some y)⟩ : FS C) a =
      ⟨Function.update (Function.update (Function.update user a none) b none) a (some y),
       Function.update (Function.update (Function.update (fun _ => none) (target a) (some x)) (target b) (some y)) (target a) none⟩ := by
    unfold save
    rw [if_pos hv]
    dsimp only
    rw [show Function.update (Function.update (fun _ => none) (target a) (some x)) (target b) (some y) (target a) = some y by
      rw [ht]; exact Function.update_self _ _ _]
  rw [e3]
  unfold save
  rw [if_pos hv']
  dsimp only
  rw [← ht, Function.update_self]
  dsimp only
  exact ⟨by rw [Function.update_of_ne hab, Function.update_self], Function.update_self _ _ _⟩

/-! ## Examples -/

example : target "paper.aux".toList = "texput.aux".toList ∧ target "a.b/c.bib".toList = "texput.bib".toList ∧ target "notes".toList = "texputs".toList ∧
    target "../refs".toList = "texput./refs".toList := by decide

example : valid "paper.aux".toList = true ∧ valid "dir/paper.bib".toList = true ∧ valid "../refs".toList = false ∧ valid "v1.2/refs".toList = false := by decide

example : Different ["dir/paper.aux".toList, "paper.bib".toList, "notes".toList] := by unfold Different; decide

/-- Two files are used, one of them is changed by TeX. -/
example :
    let user : Name → Option ℕ := fun n => if n = "a.aux".toList then some 1 else if n = "b.bib".toList then some 2 else none
    let tex : (Name → Option ℕ) → Name → Option ℕ := fun tmp n => if n = "texput.aux".toList then some 7 else tmp n
    run true tex ["a.aux".toList, "b.bib".toList] user "a.aux".toList = some 7 ∧ run true tex ["a.aux".toList, "b.bib".toList] user "b.bib".toList = some 2 ∧
      run false tex ["a.aux".toList, "b.bib".toList] user "b.bib".toList = none := by
  refine ⟨?_, ?_, ?_⟩ <;> rfl

end PyX.Text.UseFiles
