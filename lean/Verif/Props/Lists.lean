import Verif.Model.Lists
import Mathlib.Tactic.Common

/-!
# Properties of list helpers and file lists (C43, C47)
-/

namespace Modred

variable {α : Type*}

theorem lastChars_eq_iff (f ext : List α) (h : ext ≠ []) :
    lastChars f ext.length = ext ↔ ext <:+ f := by
  unfold lastChars
  rw [if_neg fun h' => h (List.length_eq_zero_iff.mp h')]
  constructor
  · intro h1
    rw [← h1]
    exact List.drop_suffix _ _
  · rintro ⟨t, rfl⟩
    rw [List.length_append, Nat.add_sub_cancel, List.drop_left]

theorem foldl_filter (p : α → Prop) [DecidablePred p] (l acc : List α) :
    l.foldl (fun acc f => if p f then acc ++ [f] else acc) acc = acc ++ l.filter fun f => decide (p f) := by
  induction l generalizing acc with
  | nil => simp
  | cons x l ih =>
    rw [List.foldl_cons, ih]
    by_cases h : p x <;> simp [h]

open Classical in
/-- **C43.** With a non-empty extension, exactly the names that end in it are returned, in the order
of the directory listing. -/
theorem C43_names_with_extension (files : List (List Char)) (ext : List Char) (h : ext ≠ []) :
    getFileList files (some ext) = files.filter fun f => decide (ext <:+ f) := by
  unfold getFileList
  dsimp only
  rw [foldl_filter (fun f => lastChars f ext.length = ext), List.nil_append]
  refine List.filter_congr fun f _ => ?_
  simp only [lastChars_eq_iff f ext h]

example : getFileList ["a.txt".toList, "txt".toList, "t".toList, "b.txt".toList] (some "txt".toList) =
    ["a.txt".toList, "txt".toList, "b.txt".toList] := by decide

/-- **C43.** Without an extension all names are returned. -/
theorem C43_all_names_without_extension (files : List (List Char)) :
    getFileList files none = files := rfl

/-- **C43, violation.** With the empty extension, in which every name ends, no file is returned:
names are not empty. -/
theorem C43_empty_extension_violation (files : List (List Char)) (h : ∀ f ∈ files, f ≠ []) :
    getFileList files (some []) = [] ∧ ∀ f ∈ files, [] <:+ f := by
  refine ⟨?_, fun f _ => List.nil_suffix⟩
  unfold getFileList
  dsimp only
  rw [foldl_filter (fun f => lastChars f ([] : List Char).length = []), List.nil_append,
    List.filter_eq_nil_iff]
  intro f hf
  simp [lastChars, h f hf]

example : getFileList ["a".toList, "b".toList] (some []) = [] := by decide

/-- **C47.** `flatten_list` concatenates. -/
theorem C47_flatten_list (l : List (List α)) : flattenList l = l.flatten := by
  simp [flattenList, List.flatMap_def]

/-- **C47.** `sum_lists` adds elementwise, and raises `AssertionError` for lists of different
lengths. -/
theorem C47_sum_lists [Add α] [Inhabited α] (a b : List α) :
    if a.length = b.length then sumLists a b = .ok (List.zipWith (fun x y => x + y) a b)
    else sumLists a b = .error .assertionError := by
  unfold sumLists
  split
  · rename_i h
    congr 1
    apply List.ext_getElem (by simp [h])
    intro i h1 h2
    have h3 : i < a.length := by simpa using h1
    have h4 : i < b.length := by omega
    simp [List.getD, h3, h4]
  · rfl

/-- **C47.** `atleast_2d_row` turns a number into a 1 x 1 array and a list into a row, and leaves
other arrays as they are. -/
theorem C47_atleast_2d_row (x : α) (l : List α) (rows : List (List α)) (fortran : Bool) :
    atleast2dRow (.d0 x) = .d2 [[x]] false ∧ atleast2dRow (.d1 l) = .d2 [l] false ∧
      atleast2dRow (.d2 rows fortran) = .d2 rows fortran ∧
      atleast2dRow (.higher : Nd α) = .higher := ⟨rfl, rfl, rfl, rfl⟩

/-- **C47.** `atleast_2d_col` turns a number into a 1 x 1 array and a list into a column, and leaves
other arrays as they are. -/
theorem C47_atleast_2d_col (x : α) (l : List α) (rows : List (List α)) (fortran : Bool) :
    atleast2dCol (.d0 x) = .d2 [[x]] false ∧
      (∃ col, atleast2dCol (.d1 l) = .d2 col false ∧ col.length = l.length ∧
        ∀ (i : Nat) (h : i < l.length), col[i]? = some [l[i]]) ∧
      atleast2dCol (.d2 rows fortran) = .d2 rows fortran ∧
      atleast2dCol (.higher : Nd α) = .higher :=
  ⟨rfl, ⟨_, rfl, by simp, fun i h => by simp [h]⟩, rfl, rfl⟩

end Modred
