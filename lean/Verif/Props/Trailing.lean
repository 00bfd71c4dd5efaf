import Mathlib.Data.List.Forall2
import Verif.Lemmas.JoiningText
import Verif.Props.Preprocess
import Verif.Props.Safety

/-
C116: whitespace at the ends of lines makes no difference, and neither does the kind of line ends (`\n`, `\r\n`).
-/

namespace Verif
open Py

/-- The lines differ only by whitespace at the end. -/
def Spec.SameLine (l l' : Str) : Prop :=
  ∃ t w w', l = t ++ w ∧ l' = t ++ w' ∧ (∀ c ∈ w, isSpace c = true) ∧ ∀ c ∈ w', isSpace c = true

/-- As many lines, that differ only by whitespace at their ends. -/
def Spec.SameLines (text text' : Str) : Prop := List.Forall₂ Spec.SameLine (split '\n' text) (split '\n' text')

/-- The text with line ends `\r\n`. -/
def Spec.crlf : Str → Str
  | [] => []
  | c :: t => if c = '\n' then '\r' :: '\n' :: Spec.crlf t else c :: Spec.crlf t

theorem rstrip_append_space {t w : Str} (h : ∀ c ∈ w, isSpace c = true) : rstrip (t ++ w) = rstrip t := by
  unfold rstrip
  rw [List.reverse_append, dropWhile_append_of_all (by simpa using h)]

theorem Spec.SameLine.rstrip_eq {l l' : Str} (h : Spec.SameLine l l') : rstrip l = rstrip l' := by
  obtain ⟨t, w, w', rfl, rfl, h1, h2⟩ := h
  rw [rstrip_append_space h1, rstrip_append_space h2]

theorem preStep_sameLine {M : Marks} {total : Nat} {st : PreState} {l l' : Str} (h : Spec.SameLine l l') :
    preStep M total st l = preStep M total st l' := by
  unfold preStep
  rw [h.rstrip_eq]

theorem preLoop_sameLines {M : Marks} {total : Nat} {ls ls' : List Str} (h : List.Forall₂ Spec.SameLine ls ls') :
    ∀ st, preLoop M total st ls = preLoop M total st ls' := by
  induction h with
  | nil => intro st; rfl
  | cons h1 _ ih =>
    intro st
    simp only [preLoop, preStep_sameLine h1, ih]

theorem Spec.SameLine.refl (l : Str) : Spec.SameLine l l := ⟨l, [], [], by simp, by simp, by simp, by simp⟩

theorem Spec.SameLine.symm {l l' : Str} (h : Spec.SameLine l l') : Spec.SameLine l' l := by
  obtain ⟨t, w, w', h1, h2, h3, h4⟩ := h
  exact ⟨t, w', w, h2, h1, h4, h3⟩

/-- The encoded script is the same, or the same line has a wrong indentation. -/
theorem C116_encoded (M : Marks) {text text' : Str} (h : Spec.SameLines text text') :
    preprocess M text = preprocess M text' := by
  have hl : (split '\n' text).length = (split '\n' text').length := h.length_eq
  have : List.Forall₂ Spec.SameLine (split '\n' text ++ [[]]) (split '\n' text' ++ [[]]) :=
    List.rel_append h (.cons (.refl _) .nil)
  unfold preprocess
  simp only [List.length_append, hl, preLoop_sameLines this]

/-- So are the statements of the script, or its syntax error. -/
theorem C116_loaded {P : Type} (M : Marks) (U : Uni) (names : Str → Option Char) {text text' : Str}
    (h : Spec.SameLines text text') :
    (loadScript M U names text : Except LoadErr (List (Stmt P))) = loadScript M U names text' := by
  unfold loadScript
  rw [C116_encoded M h]

/-- Whether lines of a script can be parsed by themselves: `_locate_error`, ast.py:1999-2004. -/
def Spec.parsesAlone (M : Marks) (U : Uni) (ls : List Str) : Bool :=
  match preprocess M (join ['\n'] ls) with
  | .ok flat => (parse M U flat).toOption.isSome
  | .error _ => false

theorem locateLoop_congr {p p' : List Str → Bool} {ls ls' : List Str} (h : ∀ n, p (ls.take n) = p' (ls'.take n)) (g b : Nat) :
    locateLoop p ls g b = locateLoop p' ls' g b := by
  generalize hk : b - g = k
  induction k using Nat.strongRecOn generalizing g b with
  | _ k ih =>
    rw [locateLoop, locateLoop]
    by_cases h1 : g + 1 < b
    · simp only [if_pos h1, h]
      rw [ih (b - (g + b) / 2) (by omega) _ _ rfl, ih ((g + b) / 2 - g) (by omega) _ _ rfl]
    · simp only [if_neg h1]

theorem Spec.SameLine.strip_eq {l l' : Str} (h : Spec.SameLine l l') : strip l = strip l' := by
  unfold strip
  rw [h.rstrip_eq]

/-- The line that is reported with a syntax error is the same, and the text that is quoted from it. -/
theorem C116_located (M : Marks) (U : Uni) {text text' : Str} (h : Spec.SameLines text text') :
    locateError (Spec.parsesAlone M U) text = locateError (Spec.parsesAlone M U) text' := by
  have key : ∀ n, Spec.parsesAlone M U ((split '\n' text).take n) = Spec.parsesAlone M U ((split '\n' text').take n) := by
    intro n
    unfold Spec.parsesAlone
    have : preprocess M (join ['\n'] ((split '\n' text).take n)) = preprocess M (join ['\n'] ((split '\n' text').take n)) := by
      refine C116_encoded M ?_
      unfold Spec.SameLines
      have ht : List.Forall₂ Spec.SameLine ((split '\n' text).take n) ((split '\n' text').take n) := List.forall₂_take n h
      by_cases hn : (split '\n' text).take n = []
      · have hn' : (split '\n' text').take n = [] := by
          rw [hn] at ht
          exact List.forall₂_nil_left_iff.1 ht
        rw [hn, hn']
        exact .cons (.refl _) .nil
      · have hn' : (split '\n' text').take n ≠ [] := by
          intro e
          rw [e] at ht
          exact hn (List.forall₂_nil_right_iff.1 ht)
        rw [split_join hn (fun l hl => not_mem_split _ _ l (List.mem_of_mem_take hl)),
          split_join hn' (fun l hl => not_mem_split _ _ l (List.mem_of_mem_take hl))]
        exact ht
    rw [this]
  unfold locateError
  simp only [locateLoop_congr key, h.length_eq]
  generalize (locateLoop (Spec.parsesAlone M U) (split '\n' text') 0 (split '\n' text').length).2 = b
  generalize (if b = 0 then 1 else b) = b
  have hall : ∀ (ls ls' : List Str), List.Forall₂ Spec.SameLine ls ls' → ∀ i : Nat,
      (ls[i]?).map (fun l => (strip l, b)) = (ls'[i]?).map (fun l => (strip l, b)) := by
    intro ls ls' h
    induction h with
    | nil => intro i; rfl
    | cons h1 _ ih =>
      intro i
      cases i with
      | zero => simp [h1.strip_eq]
      | succ i => simpa using ih i
  exact hall _ _ h _

/-- A script with line ends `\r\n` has the same lines. -/
theorem C116_crlf_lines (text : Str) : Spec.SameLines text (Spec.crlf text) := by
  unfold Spec.SameLines
  induction text with
  | nil => exact .cons (.refl _) .nil
  | cons c t ih =>
    by_cases hc : c = '\n'
    · subst hc
      simp only [split, Spec.crlf, if_true]
      rw [if_neg (by decide)]
      refine .cons ⟨[], [], ['\r'], rfl, rfl, by simp, ?_⟩ ih
      simp [isSpace]
    · simp only [split, Spec.crlf, if_neg hc]
      generalize split '\n' t = ls at ih ⊢
      generalize split '\n' (Spec.crlf t) = ls' at ih ⊢
      cases ih with
      | nil => exact .cons (.refl _) .nil
      | cons h1 h2 =>
        obtain ⟨t, w, w', rfl, rfl, h3, h4⟩ := h1
        exact .cons ⟨c :: t, w, w', rfl, rfl, h3, h4⟩ h2

/-- Scripts with line ends `\r\n` are read as those with line ends `\n`, multi-line raw strings included. -/
theorem C116_crlf {P : Type} (M : Marks) (U : Uni) (names : Str → Option Char) (text : Str) :
    (loadScript M U names (Spec.crlf text) : Except LoadErr (List (Stmt P))) = loadScript M U names text :=
  (C116_loaded M U names (C116_crlf_lines text)).symm

theorem findFree_congr {t t' : List Nat} {code : Nat} (h : ∀ c, code ≤ c → (c ∈ t ↔ c ∈ t')) :
    findFree t (t.length + 1) code = findFree t' (t'.length + 1) code := by
  have key : ∀ {t t' : List Nat}, (∀ c, code ≤ c → (c ∈ t ↔ c ∈ t')) →
      ¬ findFree t (t.length + 1) code < findFree t' (t'.length + 1) code := by
    intro t t' h hlt
    obtain ⟨h1, h2⟩ := findFree_spec' t code
    exact h2 ((h _ h1).2 (findFree_min t' _ code _ h1 hlt))
  have h1 := key h
  have h2 := key (fun c hc => (h c hc).symm)
  omega

theorem pickChars_congr {t t' : List Nat} {n code : Nat} (h : ∀ c, code ≤ c → (c ∈ t ↔ c ∈ t')) :
    pickChars t n code = pickChars t' n code := by
  induction n generalizing code with
  | zero => rfl
  | succ n ih =>
    have hf := findFree_congr h
    have := (findFree_spec' t' code).1
    simp only [pickChars, hf]
    rw [ih (fun c hc => h c (by omega))]

/-- The parser that is chosen is the same, too, unless the whitespace is a U+3000. -/
theorem C116_chosen {text text' : Str} (h : Spec.SameLines text text')
    (h1 : ∀ c ∈ text, c.toNat ≠ 0x3000) (h2 : ∀ c ∈ text', c.toNat ≠ 0x3000) :
    getParserChars (text.map Char.toNat) = getParserChars (text'.map Char.toNat) := by
  have low : ∀ c : Char, isSpace c = true → c.toNat ≠ 0x3000 → c.toNat < 0x2768 := by
    intro c hc hn
    simp only [isSpace, Bool.or_eq_true, Bool.and_eq_true, decide_eq_true_eq, beq_iff_eq] at hc
    omega
  have mem : ∀ (t : Str) (c : Char), 0x2768 ≤ c.toNat → (c ∈ t ↔ ∃ l ∈ split '\n' t, c ∈ l) := by
    intro t c hc
    have hc' : c ≠ '\n' := by rintro rfl; simp at hc
    induction t with
    | nil => simp [split]
    | cons d t ih =>
      by_cases hd : d = '\n'
      · subst hd
        simp [split, ih, hc']
      · simp only [split, if_neg hd]
        have hne := split_ne_nil '\n' t
        generalize split '\n' t = ls at ih hne ⊢
        cases ls with
        | nil => exact absurd rfl hne
        | cons l ls => simp [ih, or_assoc]
  have one : ∀ {t t' : Str}, Spec.SameLines t t' → (∀ c ∈ t, c.toNat ≠ 0x3000) → ∀ c : Char, 0x2768 ≤ c.toNat → c ∈ t → c ∈ t' := by
    intro t t' h hn c hc hm
    obtain ⟨l, hl, hcl⟩ := (mem t c hc).1 hm
    have : ∀ {ls ls' : List Str}, List.Forall₂ Spec.SameLine ls ls' → l ∈ ls → ∃ l' ∈ ls', Spec.SameLine l l' := by
      intro ls ls' h
      induction h with
      | nil => intro h; cases h
      | cons a _ ih =>
        intro hl
        rcases List.mem_cons.1 hl with rfl | hl
        · exact ⟨_, by simp, a⟩
        · obtain ⟨l', x, y⟩ := ih hl
          exact ⟨l', by simp [x], y⟩
    obtain ⟨l', hl', t1, w, w', e1, e2, h3, h4⟩ := this h hl
    refine (mem t' c hc).2 ⟨l', hl', ?_⟩
    rw [e1] at hcl
    rw [e2]
    rcases List.mem_append.1 hcl with x | x
    · exact List.mem_append_left _ x
    · exact absurd hc (by have := low c (h3 c x) (hn c hm); omega)
  have hsymm : Spec.SameLines text' text := by
    unfold Spec.SameLines at h ⊢
    generalize split '\n' text = ls at h
    generalize split '\n' text' = ls' at h
    induction h with
    | nil => exact .nil
    | cons a _ ih => exact .cons a.symm ih
  have iff : ∀ n, 0x2768 ≤ n → (n ∈ text.map Char.toNat ↔ n ∈ text'.map Char.toNat) := by
    intro n hn
    simp only [List.mem_map]
    constructor
    · rintro ⟨c, hc, rfl⟩; exact ⟨c, one h h1 c hn hc, rfl⟩
    · rintro ⟨c, hc, rfl⟩; exact ⟨c, one hsymm h2 c hn hc, rfl⟩
  unfold getParserChars
  have hd : charsDefault.any (fun c => (text.map Char.toNat).elem c) = charsDefault.any (fun c => (text'.map Char.toNat).elem c) := by
    simp only [charsDefault, List.any_cons, List.any_nil, List.elem_eq_contains]
    have : ∀ n, 0x2768 ≤ n → (text.map Char.toNat).contains n = (text'.map Char.toNat).contains n := by
      intro n hn
      rw [Bool.eq_iff_iff, List.contains_iff_mem, List.contains_iff_mem]
      exact iff n hn
    rw [this _ (by decide), this _ (by decide), this _ (by decide), this _ (by decide)]
  rw [hd, pickChars_congr iff]

/-- A script with blanks and tabs at the ends of lines and in an empty one, and line ends `\r\n`. -/
example : Spec.SameLines (s!!"p \n   \n  | one \nb | two") (s!!"p\r\n\t\r\n  | one\r\nb | two\r") := by
  refine .cons ⟨s!!"p", s!!" ", s!!"\r", by decide, by decide, by decide, by decide⟩
    (.cons ⟨[], s!!"   ", s!!"\t\r", by decide, by decide, by decide, by decide⟩
      (.cons ⟨s!!"  | one", s!!" ", s!!"\r", by decide, by decide, by decide, by decide⟩
        (.cons ⟨s!!"b | two", [], s!!"\r", by decide, by decide, by decide, by decide⟩ .nil)))

/-- They are rendered to the same text. -/
example : exText [] (s!!"if True \n   \n  | one\t\n   two  \n! {three}") = some (s!!"\n\n one\ntwo\n{three}") ∧
    exText [] (s!!"if True\r\n\r\n  | one\r\n   two\r\n! {three}\r") = some (s!!"\n\n one\ntwo\n{three}") := by
  constructor <;> decide +kernel

/-- The same line has a wrong indentation. -/
example : preprocess defaultMarks (s!!"p\r\n  a\r\n\tb\r\n") = .error (.indentation 3) := by decide +kernel

end Verif
