import Verif.Lemmas.Errors
import Verif.Props.Preprocess

/-! C91: positions in error messages. -/

namespace Verif
open Py Spec

/-! ### C91: messages of exceptions point to the place in the original script -/

/-- The text of the node at `pos`. -/
def textAt (full : Str) (pos : Nat × Nat) : Str := (full.take pos.2).drop pos.1

section
variable {M : Marks} {text full : Str} (hu : Usable M text) (ho : preprocess M text = .ok full)
include hu ho

theorem script_place {pre s post : Str} (hs : s ≠ []) (hp : Plain M s) (he : full = pre ++ (s ++ post)) :
    ∃ i l a b p, (lines text)[i]? = some l ∧ l = leading l ++ a ++ s ++ b ∧ pre = p ++ '\n' :: a ∧
      '\n' ∉ a ∧ strCount '\n' pre = i + 1 ∧ balance M pre = (leading l).length := by
  rw [preprocess_eq_enc] at ho
  obtain ⟨i, l, a, b, p, h1, h2, h3, h4, h5, h6⟩ := enc_place hu.distinct hu.notNl
    (fun l hl => not_mem_lines hl) (fun l hl c hc => hu.fresh c (mem_of_mem_lines hl hc)) ho hs hp he
  exact ⟨i, l, a, b, p, h1, h2, h3, h4, by omega, by rw [h6]; simp⟩

/-- Any node within a line of any script: the line reported is the one, from 1, of the original script that
contains the text of the node, and the column is, from 1, that of the place right after this text, whatever the
indentation is. `a` is what precedes the node in its line, so it is this occurrence of the text. -/
theorem C91_position {pos : Nat × Nat} (h1 : pos.1 < pos.2) (h2 : pos.2 ≤ full.length)
    (h3 : ∀ c ∈ textAt full pos, isMark M c = false ∧ c ≠ '\n') :
    ∃ l a b p, 1 ≤ (errorAt M full pos).line ∧ (lines text)[(errorAt M full pos).line - 1]? = some l ∧
      l = leading l ++ a ++ textAt full pos ++ b ∧ full.take pos.1 = p ++ '\n' :: a ∧ '\n' ∉ a ∧
      (errorAt M full pos).column = ((leading l ++ a).length + (textAt full pos).length + 1 : Nat) := by
  have hlen : (textAt full pos).length = pos.2 - pos.1 := by
    simp [textAt, Nat.min_eq_left h2]
  have hs : textAt full pos ≠ [] := by
    intro e
    rw [e] at hlen
    simp at hlen
    omega
  have hpre : full.take pos.2 = full.take pos.1 ++ textAt full pos := by
    have : (full.take pos.2).take pos.1 = full.take pos.1 := by
      rw [List.take_take, Nat.min_eq_left (Nat.le_of_lt h1)]
    rw [← this]
    exact (List.take_append_drop _ _).symm
  obtain ⟨i, l, a, b, p, e1, e2, e3, e4, e5, e6⟩ := script_place hu ho (pre := full.take pos.1)
    (post := full.drop pos.2) hs h3 (by rw [← List.append_assoc, ← hpre, List.take_append_drop])
  have hnl : '\n' ∉ textAt full pos := fun hm => (h3 _ hm).2 rfl
  have hline : (errorAt M full pos).line = i + 1 := by
    simp only [errorAt, parserErrorAt]
    rw [hpre, strCount_append, e5, strCount_none hnl]
    omega
  refine ⟨l, a, b, p, by omega, by rw [hline]; exact e1, e2, e3, e4, ?_⟩
  have hr : rfind '\n' (full.take pos.2) = p.length := by
    rw [hpre, e3, List.append_assoc, List.cons_append]
    refine rfind_append p (fun hm => ?_)
    exact (List.mem_append.1 hm).elim e4 hnl
  have hc : (full.take pos.2).length = p.length + 1 + a.length + (textAt full pos).length := by
    rw [hpre, e3]
    simp
    omega
  have hbal : (errorAt M full pos).column =
      balance M (full.take pos.1) + (((full.take pos.2).length : Int) - rfind '\n' (full.take pos.2)) := rfl
  rw [hbal, e6, hr, hc]
  simp only [List.length_append]
  omega

/-- Any node that extends over several lines: the line is that of its last character; the column is that of the
place after it, but counted with the indentation of the line where the node begins. -/
theorem C91_multiline {pos : Nat × Nat} {c d : Char} {mid : Str} (h1 : pos.2 ≤ full.length)
    (h2 : textAt full pos = c :: mid ++ [d]) (hc : isMark M c = false ∧ c ≠ '\n')
    (hd : isMark M d = false ∧ d ≠ '\n') :
    ∃ (k : Nat) (l l' a b a' b' : Str),
      ((full.take pos.1).filter (· == '\n')).length = k + 1 ∧ (lines text)[k]? = some l ∧
      l = leading l ++ a ++ c :: b ∧
      1 ≤ (errorAt M full pos).line ∧ (lines text)[(errorAt M full pos).line - 1]? = some l' ∧
      l' = leading l' ++ a' ++ d :: b' ∧
      (errorAt M full pos).column = ((leading l).length + a'.length + 2 : Nat) := by
  have hlt : pos.1 ≤ pos.2 := by
    have := congrArg List.length h2
    simp [textAt, Nat.min_eq_left h1] at this
    omega
  have hpre : full.take pos.2 = full.take pos.1 ++ (c :: mid ++ [d]) := by
    rw [← h2]
    have : (full.take pos.2).take pos.1 = full.take pos.1 := by
      rw [List.take_take, Nat.min_eq_left hlt]
    rw [← this]
    exact (List.take_append_drop _ _).symm
  have hfull : full = full.take pos.1 ++ (c :: mid ++ [d]) ++ full.drop pos.2 := by
    rw [← hpre, List.take_append_drop]
  have single : ∀ {x : Char}, (isMark M x = false ∧ x ≠ '\n') → Plain M [x] := by
    intro x hx y hy
    rw [List.mem_singleton] at hy
    exact hy ▸ hx
  obtain ⟨k, l, a, b, p, e1, e2, e3, e4, e5, e6⟩ := script_place hu ho (pre := full.take pos.1) (s := [c])
    (post := mid ++ [d] ++ full.drop pos.2) (by simp) (single hc) (by simpa using hfull)
  obtain ⟨k', l', a', b', p', g1, g2, g3, g4, g5, g6⟩ := script_place hu ho
    (pre := full.take pos.1 ++ c :: mid) (s := [d]) (post := full.drop pos.2) (by simp) (single hd)
    (by simpa using hfull)
  have hpre' : full.take pos.2 = (full.take pos.1 ++ c :: mid) ++ [d] := by rw [hpre]; simp
  have hdn : '\n' ∉ [d] := (single hd).notNl
  have hline : (errorAt M full pos).line = k' + 1 := by
    simp only [errorAt, parserErrorAt]
    rw [hpre', strCount_append, g5, strCount_none hdn]
    omega
  refine ⟨k, l, l', a, b, a', b', e5, e1, by simpa using e2, by omega, by rw [hline]; exact g1,
    by simpa using g2, ?_⟩
  have hr : rfind '\n' (full.take pos.2) = p'.length := by
    rw [hpre', g3, List.append_assoc, List.cons_append]
    refine rfind_append p' (fun hm => ?_)
    exact (List.mem_append.1 hm).elim g4 hdn
  have hlen : (full.take pos.2).length = p'.length + 1 + a'.length + 1 := by
    rw [hpre', g3]
    simp
    omega
  have hbal : (errorAt M full pos).column =
      balance M (full.take pos.1) + (((full.take pos.2).length : Int) - rfind '\n' (full.take pos.2)) := rfl
  rw [hbal, e6, hr, hlen]
  omega

end

/-- The message quotes the node, at most 20 characters of it. -/
theorem C91_text (M : Marks) {full : Str} {pos : Nat × Nat} (h1 : pos.1 ≤ pos.2) (h2 : pos.2 ≤ full.length) :
    ((textAt full pos).length ≤ 20 → (errorAt M full pos).text = textAt full pos) ∧
    (20 < (textAt full pos).length →
      (errorAt M full pos).text = (textAt full pos).take 20 ++ s!!"...") := by
  have hlen : (textAt full pos).length = pos.2 - pos.1 := by simp [textAt, Nat.min_eq_left h2]
  have he : (errorAt M full pos).text = nodeText full pos 20 := rfl
  rw [hlen, he]
  unfold nodeText
  constructor
  · intro h
    have : min pos.2 (pos.1 + 20) = pos.2 := by omega
    rw [this, if_neg (Nat.lt_irrefl _)]
    rfl
  · intro h
    have : min pos.2 (pos.1 + 20) = pos.1 + 20 := by omega
    rw [this, if_pos (by omega)]
    congr 1
    unfold textAt
    rw [List.take_drop, List.take_take, Nat.min_eq_left (by omega)]

/-! Examples -/

/-- `$x` in line 2 of an indented script: the message says line 2, column 9 (after the variable). -/
example : preprocess stdMarks (s!!"p\n    | $x b\nq") = .ok (s!!"\np❨❨❨❨\n| $x b❩❩❩❩\nq") ∧
    textAt (s!!"\np❨❨❨❨\n| $x b❩❩❩❩\nq") (9, 11) = s!!"$x" ∧
    errorAt stdMarks (s!!"\np❨❨❨❨\n| $x b❩❩❩❩\nq") (9, 11) = ⟨2, 9, s!!"$x"⟩ := by decide

/-- A node of two lines that begins without indentation: the line is that of its end, the column is too small by the
indentation of this line. -/
example : textAt (s!!"\np❨❨❨❨\n| $x b❩❩❩❩\nq") (1, 11) = s!!"p❨❨❨❨\n| $x" ∧
    errorAt stdMarks (s!!"\np❨❨❨❨\n| $x b❩❩❩❩\nq") (1, 11) = ⟨2, 5, s!!"p❨❨❨❨\n| $x"⟩ := by decide

example : (errorAt stdMarks (s!!"\nabcdefghijklmnopqrstuvw") (1, 24)).text = s!!"abcdefghijklmnopqrst..." := by
  decide

end Verif
