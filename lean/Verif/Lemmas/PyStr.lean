import Verif.Model.PyStr
import Mathlib.Tactic.Common

/-! Lemmas on the Python string primitives. -/

namespace Verif
open Py

theorem replaceAux_single (c : Char) (new s : Str) :
    replaceAux [c] new 0 s = s.flatMap (fun x => if x = c then new else [x]) := by
  induction s with
  | nil => simp [replaceAux]
  | cons d s ih =>
    by_cases h : d = c
    · subst h; simp [replaceAux, List.isPrefixOf, ih]
    · have h' : ¬ c = d := fun e => h e.symm
      simp [replaceAux, List.isPrefixOf, ih, h, h']

/-- Replacing a single character is a character-wise map. -/
theorem replace_single (s : Str) (c : Char) (new : Str) :
    replace s [c] new = s.flatMap (fun x => if x = c then new else [x]) :=
  replaceAux_single c new s

theorem replaceAux_skip (old new : Str) (s : Str) (k : Nat) :
    replaceAux old new k s = replaceAux old new 0 (s.drop k) := by
  induction s generalizing k with
  | nil => simp [replaceAux]
  | cons c s ih =>
    cases k with
    | zero => simp
    | succ k => simp [replaceAux, ih k]

theorem split_ne_nil (sep : Char) (s : Str) : split sep s ≠ [] := by
  cases s with
  | nil => simp [split]
  | cons c s =>
    simp only [split]
    split
    · simp
    · split <;> simp

theorem split_cons_sep (sep : Char) (s : Str) : split sep (sep :: s) = [] :: split sep s := by
  simp [split]

theorem split_cons_ne {sep c : Char} (h : c ≠ sep) (s : Str) :
    split sep (c :: s) = (c :: (split sep s).headD []) :: (split sep s).tail := by
  have := split_ne_nil sep s
  simp only [split, h, if_false]
  cases hs : split sep s with
  | nil => exact absurd hs this
  | cons l ls => simp

theorem join_cons (sep l : Str) {ls : List Str} (h : ls ≠ []) :
    join sep (l :: ls) = l ++ sep ++ join sep ls := by
  cases ls with
  | nil => exact absurd rfl h
  | cons m ms => rfl

theorem join_cons_cons (sep l m : Str) (ms : List Str) :
    join sep (l :: m :: ms) = l ++ sep ++ join sep (m :: ms) := rfl

theorem join_head_cons (sep : Str) (c : Char) (l : Str) (ls : List Str) :
    join sep ((c :: l) :: ls) = c :: join sep (l :: ls) := by
  cases ls with
  | nil => rfl
  | cons m ms => simp [join]

theorem join_split (sep : Char) (s : Str) : join [sep] (split sep s) = s := by
  induction s with
  | nil => simp [split, join]
  | cons c s ih =>
    by_cases h : c = sep
    · subst h
      rw [split_cons_sep, join_cons _ _ (split_ne_nil _ _), ih]; simp
    · rw [split_cons_ne h]
      have hne := split_ne_nil sep s
      cases hs : split sep s with
      | nil => exact absurd hs hne
      | cons l ls => rw [hs] at ih; simp [join_head_cons, ih]

theorem not_mem_split (sep : Char) (s : Str) : ∀ l ∈ split sep s, sep ∉ l := by
  induction s with
  | nil => simp [split]
  | cons c s ih =>
    by_cases h : c = sep
    · subst h; rw [split_cons_sep]; intro l hl
      rcases List.mem_cons.1 hl with rfl | hl
      · simp
      · exact ih l hl
    · rw [split_cons_ne h]
      have hne := split_ne_nil sep s
      cases hs : split sep s with
      | nil => exact absurd hs hne
      | cons m ms =>
        rw [hs] at ih
        intro l hl
        simp only [List.headD_cons, List.tail_cons, List.mem_cons] at hl
        rcases hl with rfl | hl
        · have := ih m (by simp)
          simp only [List.mem_cons, not_or]
          exact ⟨fun e => h e.symm, this⟩
        · exact ih l (by simp [hl])

/-- A line without separator followed by a separator is the first segment. -/
theorem split_append_sep {sep : Char} {l : Str} (h : sep ∉ l) (s : Str) :
    split sep (l ++ sep :: s) = l :: split sep s := by
  induction l with
  | nil => simp [split]
  | cons c l ih =>
    simp only [List.mem_cons, not_or] at h
    rw [List.cons_append, split_cons_ne (fun e => h.1 e.symm), ih h.2]
    simp

theorem split_of_not_mem {sep : Char} {l : Str} (h : sep ∉ l) : split sep l = [l] := by
  induction l with
  | nil => simp [split]
  | cons c l ih =>
    simp only [List.mem_cons, not_or] at h
    rw [split_cons_ne (fun e => h.1 e.symm), ih h.2]
    simp

theorem split_join {sep : Char} {ls : List Str} (hne : ls ≠ []) (h : ∀ l ∈ ls, sep ∉ l) :
    split sep (join [sep] ls) = ls := by
  induction ls with
  | nil => exact absurd rfl hne
  | cons l ls ih =>
    cases ls with
    | nil => simp only [join]; exact split_of_not_mem (h l (by simp))
    | cons m ms =>
      rw [join_cons _ _ (by simp)]
      have e : l ++ [sep] ++ join [sep] (m :: ms) = l ++ sep :: join [sep] (m :: ms) := by simp
      rw [e, split_append_sep (h l (by simp)), ih (by simp) (fun x hx => h x (by simp [hx]))]

theorem split_append (sep : Char) (a b : Str) :
    split sep (a ++ b) =
      (split sep a).dropLast ++
        (((split sep a).getLastD [] ++ (split sep b).headD []) :: (split sep b).tail) := by
  induction a with
  | nil =>
    have hne := split_ne_nil sep b
    cases hs : split sep b with
    | nil => exact absurd hs hne
    | cons l ls => simp [split, hs]
  | cons c a ih =>
    by_cases h : c = sep
    · subst h
      have hne := split_ne_nil c a
      rw [List.cons_append, split_cons_sep, split_cons_sep, ih]
      cases hs : split c a with
      | nil => exact absurd hs hne
      | cons l ls => simp [List.getLastD]
    · rw [List.cons_append, split_cons_ne h, split_cons_ne h, ih]
      have hne := split_ne_nil sep a
      cases hs : split sep a with
      | nil => exact absurd hs hne
      | cons l ls =>
        cases ls with
        | nil => simp [List.getLastD]
        | cons m ms => simp [List.getLastD]

theorem join_append_singleton (sep : Str) {ls : List Str} (h : ls ≠ []) (m : Str) :
    join sep (ls ++ [m]) = join sep ls ++ sep ++ m := by
  induction ls with
  | nil => exact absurd rfl h
  | cons l ls ih =>
    cases ls with
    | nil => simp [join]
    | cons k ks =>
      rw [List.cons_append, join_cons _ _ (by simp), ih (by simp), join_cons sep l (ls := k :: ks) (by simp)]
      simp

end Verif
