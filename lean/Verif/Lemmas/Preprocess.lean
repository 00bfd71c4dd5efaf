import Verif.Spec.Preprocess
import Verif.Lemmas.Lines
import Mathlib.Data.List.Induction

/-! Lemmas on the encoding of indentation. -/

namespace Verif
open Py Spec

theorem appendLast_append (ls : List Str) (l s : Str) :
    appendLast (ls ++ [l]) s = ls ++ [l ++ s] := by
  induction ls with
  | nil => rfl
  | cons a ls ih =>
    cases ls with
    | nil => rfl
    | cons b bs => simp only [List.cons_append, appendLast] at ih ⊢; rw [ih]

/-- Leading whitespace computed as in the code. -/
theorem indent_eq (l : Str) : l.take (l.length - (lstrip l).length) = leading l := by
  unfold lstrip leading
  induction l with
  | nil => rfl
  | cons c l ih =>
    by_cases h : isSpace c = true
    · have hle : (l.dropWhile isSpace).length ≤ l.length := by
        have := (List.dropWhile_suffix (l := l) isSpace).length_le; exact this
      simp only [List.dropWhile_cons, h, if_true, List.takeWhile_cons, List.length_cons]
      rw [Nat.succ_sub hle, List.take_succ_cons, ih]
    · simp [h]

theorem leading_append_lstrip (l : Str) : leading l ++ lstrip l = l :=
  List.takeWhile_append_dropWhile

theorem lstrip_rstrip_eq_nil {l : Str} : lstrip (rstrip l) = [] ↔ ¬ NonBlank l := by
  rw [← nonBlank_rstrip]
  unfold lstrip NonBlank
  rw [dropWhile_eq_nil_iff']
  simp

theorem leading_isSpace (l : Str) : ∀ c ∈ leading l, isSpace c = true := by
  intro c hc
  unfold leading at hc
  induction l with
  | nil => simp at hc
  | cons d l ih =>
    simp only [List.takeWhile_cons] at hc
    split at hc
    · rcases List.mem_cons.1 hc with rfl | hc
      · assumption
      · exact ih hc
    · simp at hc

theorem takeWhile_append_of_nonBlank {a b : Str} (h : NonBlank a) :
    leading (a ++ b) = leading a := by
  unfold leading
  induction a with
  | nil => obtain ⟨c, hc, _⟩ := h; simp at hc
  | cons c a ih =>
    by_cases hs : isSpace c = true
    · simp only [List.cons_append, List.takeWhile_cons, hs, if_true]
      rw [ih]
      obtain ⟨d, hd, hn⟩ := h
      rcases List.mem_cons.1 hd with rfl | hd
      · rw [hs] at hn; cases hn
      · exact ⟨d, hd, hn⟩
    · simp [hs]

theorem leading_rstrip {l : Str} (h : NonBlank l) : leading (rstrip l) = leading l := by
  obtain ⟨t, h1, _⟩ := rstrip_append l
  conv_rhs => rw [h1]
  rw [takeWhile_append_of_nonBlank (nonBlank_rstrip.2 h)]

/-- The text that encodes the change of indentation from `cur` to `ind`. -/
def change (M : Marks) (cur ind : Str) : Str :=
  if cur <+: ind then indentSymbols M (ind.drop cur.length)
  else dedentSymbols M (cur.drop ind.length)

/-- The output of `preprocess` as a function of the remaining lines: `cur` is the indentation in
force, `m` the pending margin, `k` the number of lines already read. -/
def enc (M : Marks) : Str → Nat → Nat → List Str → Except PreErr Str
  | cur, m, _, [] => .ok (dedentSymbols M cur ++ List.replicate m '\n')
  | cur, m, k, l :: ls =>
    if lstrip (rstrip l) = [] then enc M cur (m + 1) (k + 1) ls
    else
      let ind := leading (rstrip l)
      if cur <+: ind ∨ ind <+: cur then
        match enc M ind 0 (k + 1) ls with
        | .error e => .error e
        | .ok r => .ok (change M cur ind ++ '\n' :: List.replicate m '\n' ++
            lstrip (rstrip l) ++ r)
      else .error (.indentation (k + 1))

theorem replicate_nl_append (m : Nat) (s : Str) :
    List.replicate m '\n' ++ '\n' :: s = '\n' :: (List.replicate m '\n' ++ s) := by
  rw [← List.singleton_append, ← List.append_assoc, ← List.replicate_succ', List.replicate_succ]
  simp

/-- `preStep` on a code line. -/
theorem preStep_code (M : Marks) (total : Nat) (ls : List Str) (l0 cur : Str) (m k : Nat) (l : Str)
    (h : ¬ (lstrip (rstrip l) = [] ∧ k + 1 ≤ total)) :
    preStep M total { lines := ls ++ [l0], linenum := k, current := cur, margin := m } l =
      (if cur <+: leading (rstrip l) ∨ leading (rstrip l) <+: cur then
        .ok { lines := ls ++ [l0 ++ change M cur (leading (rstrip l))] ++
                [List.replicate m '\n' ++ lstrip (rstrip l)],
              linenum := k + 1, current := leading (rstrip l), margin := 0 }
      else .error (.indentation (k + 1))) := by
  simp only [preStep, indent_eq, h, if_false, startsWith, List.isPrefixOf_iff_prefix,
    appendLast_append]
  by_cases h1 : leading (rstrip l) = cur
  · subst h1
    simp [change, indentSymbols]
  · by_cases h2 : cur <+: leading (rstrip l)
    · simp [h1, h2, change]
    · by_cases h3 : leading (rstrip l) <+: cur
      · simp [h1, h2, h3, change]
      · simp [h1, h2, h3]

theorem preLoop_enc (M : Marks) (total : Nat) (ls : List Str) (l0 cur : Str) (m k : Nat)
    (rest : List Str) (hk : k + rest.length = total) :
    preFinish (preLoop M total { lines := ls ++ [l0], linenum := k, current := cur, margin := m }
      (rest ++ [[]])) =
      match enc M cur m k rest with
      | .error e => .error e
      | .ok r => .ok (join ['\n'] (ls ++ [l0]) ++ r) := by
  induction rest generalizing ls l0 cur m k with
  | nil =>
    simp only [List.length_nil, Nat.add_zero] at hk
    subst hk
    have hs : leading (rstrip []) = [] := rfl
    have ht : lstrip (rstrip []) = [] := rfl
    simp only [List.nil_append, preLoop]
    rw [preStep_code _ _ _ _ _ _ _ _ (by omega)]
    simp only [hs, ht, List.append_nil, List.nil_prefix, or_true, if_true, preFinish, enc]
    have hc : change M cur [] = dedentSymbols M cur := by
      unfold change
      by_cases h : cur = []
      · subst h; simp [indentSymbols, dedentSymbols]
      · simp [h]
    simp only [ne_eq, not_true, if_false, hc]
    rw [join_append_singleton _ (by simp)]
    have hj : join ['\n'] (ls ++ [l0 ++ dedentSymbols M cur]) =
        join ['\n'] (ls ++ [l0]) ++ dedentSymbols M cur := by
      cases ls with
      | nil => simp [join]
      | cons a as =>
        rw [join_append_singleton _ (by simp), join_append_singleton _ (by simp)]; simp
    rw [hj]
    have e : join ['\n'] (ls ++ [l0]) ++ dedentSymbols M cur ++ ['\n'] ++ List.replicate m '\n' ++
        List.replicate 0 '\n' =
        (join ['\n'] (ls ++ [l0]) ++ (dedentSymbols M cur ++ List.replicate m '\n')) ++ ['\n'] := by
      have := replicate_nl_append m []
      simp only [List.append_nil] at this
      simp [this]
    rw [e]
    simp
  | cons l rest ih =>
    simp only [List.length_cons] at hk
    simp only [List.cons_append, preLoop, enc]
    by_cases hb : lstrip (rstrip l) = []
    · have : preStep M total { lines := ls ++ [l0], linenum := k, current := cur, margin := m } l =
          .ok { lines := ls ++ [l0], linenum := k + 1, current := cur, margin := m + 1 } := by
        simp only [preStep, hb, true_and]
        rw [if_pos (by omega)]
      rw [this]
      simp only [hb, if_true]
      exact ih ls l0 cur (m + 1) (k + 1) (by omega)
    · rw [preStep_code _ _ _ _ _ _ _ _ (by simp [hb])]
      simp only [hb, if_false]
      by_cases hc : cur <+: leading (rstrip l) ∨ leading (rstrip l) <+: cur
      · simp only [hc, if_true]
        rw [ih _ _ _ _ _ (by omega)]
        cases enc M (leading (rstrip l)) 0 (k + 1) rest with
        | error e => rfl
        | ok r =>
          simp only [Except.ok.injEq]
          rw [join_append_singleton _ (by simp)]
          have hj : join ['\n'] (ls ++ [l0 ++ change M cur (leading (rstrip l))]) =
              join ['\n'] (ls ++ [l0]) ++ change M cur (leading (rstrip l)) := by
            cases ls with
            | nil => simp [join]
            | cons a as =>
              rw [join_append_singleton _ (by simp), join_append_singleton _ (by simp)]; simp
          rw [hj]
          simp
      · simp only [hc, if_false, preFinish]

theorem preprocess_eq_enc (M : Marks) (text : Str) :
    preprocess M text = enc M [] 0 0 (lines text) := by
  have h := preLoop_enc M (lines text).length [] [] [] 0 0 (lines text) (by simp)
  unfold preprocess
  simp only [List.length_append, List.length_singleton, Nat.add_sub_cancel]
  have e : (split '\n' text) = lines text := rfl
  rw [e]
  simp only [List.nil_append] at h
  rw [h]
  cases enc M [] 0 0 (lines text) <;> simp [join]

theorem enc_no_assertion (M : Marks) (cur : Str) (m k : Nat) (ls : List Str) :
    enc M cur m k ls ≠ .error .assertion := by
  induction ls generalizing cur m k with
  | nil => simp [enc]
  | cons l ls ih =>
    simp only [enc]
    split
    · exact ih _ _ _
    · split
      · have := ih (leading (rstrip l)) 0 (k + 1)
        cases h : enc M (leading (rstrip l)) 0 (k + 1) ls with
        | error e => rw [h] at this; simpa using this
        | ok r => simp
      · simp

/-! ### Brackets -/

def kinds (cur : Str) : List Kind := (cur.map (fun c => if c = ' ' then .space else .tab)).reverse

theorem brackets_append (M : Marks) (st : List Kind) (a b : Str) :
    brackets M st (a ++ b) = (brackets M st a).bind (fun st' => brackets M st' b) := by
  induction a generalizing st with
  | nil => rfl
  | cons c a ih =>
    simp only [List.cons_append, brackets]
    split
    · exact ih _
    split
    · exact ih _
    split
    · split
      · exact ih _
      · rfl
    split
    · split
      · exact ih _
      · rfl
    · exact ih _

theorem brackets_plain (M : Marks) (st : List Kind) (s : Str) (h : ∀ c ∈ s, isMark M c = false) :
    brackets M st s = some st := by
  induction s with
  | nil => rfl
  | cons c s ih =>
    have hc := h c (by simp)
    simp only [isMark, Bool.or_eq_false_iff, beq_eq_false_iff_ne] at hc
    simp [brackets, hc, ih (fun d hd => h d (by simp [hd]))]

theorem distinct_ne {M : Marks} (h : Marks.Distinct M) :
    M.indentS ≠ M.dedentS ∧ M.indentS ≠ M.indentT ∧ M.indentS ≠ M.dedentT ∧
    M.dedentS ≠ M.indentT ∧ M.dedentS ≠ M.dedentT ∧ M.indentT ≠ M.dedentT := by
  unfold Marks.Distinct at h
  simp at h
  tauto

theorem brackets_indent {M : Marks} (hd : Marks.Distinct M) (cur inc : Str) :
    brackets M (kinds cur) (indentSymbols M inc) = some (kinds (cur ++ inc)) := by
  have hn := distinct_ne hd
  induction inc generalizing cur with
  | nil => simp [indentSymbols, brackets]
  | cons c inc ih =>
    have := ih (cur ++ [c])
    by_cases hc : c = ' '
    · subst hc
      simp only [indentSymbols, List.map_cons, brackets, if_true]
      simpa [indentSymbols, kinds] using this
    · have h1 : M.indentT ≠ M.indentS := fun e => hn.2.1 e.symm
      simp only [indentSymbols, List.map_cons, hc, if_false, brackets, h1, if_true]
      simpa [indentSymbols, kinds, hc] using this

theorem brackets_dedent {M : Marks} (hd : Marks.Distinct M) (cur dec : Str) :
    brackets M (kinds (cur ++ dec)) (dedentSymbols M dec) = some (kinds cur) := by
  have hn := distinct_ne hd
  induction dec using List.reverseRecOn with
  | nil => simp [dedentSymbols, brackets]
  | append_singleton dec c ih =>
    have hk : kinds (cur ++ (dec ++ [c])) =
        (if c = ' ' then Kind.space else .tab) :: kinds (cur ++ dec) := by
      simp [kinds]
    rw [hk]
    have h1 : M.dedentS ≠ M.indentS := fun e => hn.1 e.symm
    have h2 : M.dedentT ≠ M.indentS := fun e => hn.2.2.1 e.symm
    have h3 : M.dedentT ≠ M.indentT := fun e => hn.2.2.2.2.2 e.symm
    have h4 : M.dedentT ≠ M.dedentS := fun e => hn.2.2.2.2.1 e.symm
    by_cases hc : c = ' '
    · subst hc
      simp only [dedentSymbols, List.reverse_append, List.reverse_singleton, List.singleton_append,
        List.map_cons, if_true, brackets, h1, if_false, hn.2.2.2.1]
      exact ih
    · simp only [dedentSymbols, List.reverse_append, List.reverse_singleton, List.singleton_append,
        List.map_cons, if_true, brackets, h2, h3, h4, if_false, hc]
      exact ih

theorem brackets_change {M : Marks} (hd : Marks.Distinct M) (cur ind : Str)
    (h : cur <+: ind ∨ ind <+: cur) :
    brackets M (kinds cur) (change M cur ind) = some (kinds ind) := by
  unfold change
  by_cases h1 : cur <+: ind
  · rw [if_pos h1]
    obtain ⟨t, rfl⟩ := h1
    simpa using brackets_indent hd cur t
  · rw [if_neg h1]
    obtain ⟨t, rfl⟩ := h.resolve_left h1
    simpa using brackets_dedent hd ind t

theorem mem_rstrip {c : Char} {l : Str} (h : c ∈ rstrip l) : c ∈ l := by
  obtain ⟨t, h1, _⟩ := rstrip_append l
  rw [h1]; simp [h]

theorem mem_lstrip {c : Char} {l : Str} (h : c ∈ lstrip l) : c ∈ l :=
  (List.dropWhile_suffix _).subset h

theorem enc_brackets {M : Marks} (hd : Marks.Distinct M) (hnl : isMark M '\n' = false)
    (cur : Str) (m k : Nat) (ls : List Str) (hls : ∀ l ∈ ls, ∀ c ∈ l, isMark M c = false)
    (out : Str) (ho : enc M cur m k ls = .ok out) :
    brackets M (kinds cur) out = some [] := by
  have hrep : ∀ n, ∀ c ∈ List.replicate n '\n', isMark M c = false := by
    intro n c hc; rw [List.mem_replicate] at hc; rw [hc.2]; exact hnl
  induction ls generalizing cur m k out with
  | nil =>
    simp only [enc, Except.ok.injEq] at ho
    subst ho
    rw [brackets_append]
    have := brackets_dedent hd [] cur
    simp only [List.nil_append] at this
    rw [this]
    simp only [Option.bind_some]
    rw [brackets_plain _ _ _ (hrep m)]
    rfl
  | cons l ls ih =>
    simp only [enc] at ho
    split at ho
    · exact ih _ _ _ (fun l' h' => hls l' (by simp [h'])) _ ho
    · split at ho
      · rename_i hc
        cases he : enc M (leading (rstrip l)) 0 (k + 1) ls with
        | error e => rw [he] at ho; simp at ho
        | ok r =>
          rw [he] at ho
          simp only [Except.ok.injEq] at ho
          subst ho
          have h1 := ih _ _ _ (fun l' h' => hls l' (by simp [h'])) _ he
          rw [List.append_assoc, List.append_assoc, brackets_append, brackets_change hd _ _ hc]
          simp only [Option.bind_some, List.cons_append]
          rw [show ('\n' :: (List.replicate m '\n' ++ (lstrip (rstrip l) ++ r))) =
            ('\n' :: List.replicate m '\n' ++ lstrip (rstrip l)) ++ r by simp, brackets_append,
            brackets_plain]
          · simpa using h1
          · intro c hcm
            simp only [List.cons_append, List.mem_cons, List.mem_append] at hcm
            rcases hcm with rfl | hcm | hcm
            · exact hnl
            · exact hrep m c hcm
            · exact hls l (by simp) c (mem_rstrip (mem_lstrip hcm))
      · cases ho

/-! ### Segments -/

theorem lines_append_nl (a b : Str) (h : '\n' ∉ a) : lines (a ++ '\n' :: b) = a :: lines b :=
  split_append_sep h b

theorem lines_replicate (m : Nat) (s : Str) :
    lines (List.replicate m '\n' ++ s) = List.replicate m [] ++ lines s := by
  induction m with
  | zero => simp
  | succ m ih =>
    rw [List.replicate_succ, List.cons_append, List.replicate_succ, List.cons_append, ← ih]
    exact split_cons_sep '\n' _

theorem lines_plain_append (a s : Str) (h : '\n' ∉ a) :
    ∃ s0 segs, lines s = s0 :: segs ∧ lines (a ++ s) = (a ++ s0) :: segs := by
  cases hs : lines s with
  | nil => exact absurd hs (lines_ne_nil s)
  | cons s0 segs =>
    refine ⟨s0, segs, rfl, ?_⟩
    have := split_append '\n' a s
    unfold lines at *
    rw [this, split_of_not_mem h, hs]
    simp

/-- All characters of a change of indentation are marks. -/
theorem change_marks (M : Marks) (cur ind : Str) : ∀ c ∈ change M cur ind, isMark M c = true := by
  intro c hc
  unfold change at hc
  split at hc
  · simp only [indentSymbols, List.mem_map] at hc
    obtain ⟨d, _, rfl⟩ := hc
    split <;> simp [isMark]
  · simp only [dedentSymbols, List.mem_map] at hc
    obtain ⟨d, _, rfl⟩ := hc
    split <;> simp [isMark]

theorem dedent_marks (M : Marks) (s : Str) : ∀ c ∈ dedentSymbols M s, isMark M c = true := by
  intro c hc
  simp only [dedentSymbols, List.mem_map] at hc
  obtain ⟨d, _, rfl⟩ := hc
  split <;> simp [isMark]

theorem not_nl_of_marks {M : Marks} (hnl : isMark M '\n' = false) {s : Str}
    (h : ∀ c ∈ s, isMark M c = true) : '\n' ∉ s := by
  intro hm; have := h _ hm; rw [hnl] at this; cases this

theorem unmarked_marks {M : Marks} {s : Str} (h : ∀ c ∈ s, isMark M c = true) :
    unmarked M s = [] := by
  unfold unmarked
  rw [List.filter_eq_nil_iff]
  intro c hc; simp [h c hc]

theorem unmarked_plain {M : Marks} {s : Str} (h : ∀ c ∈ s, isMark M c = false) :
    unmarked M s = s := by
  unfold unmarked
  rw [List.filter_eq_self]
  intro c hc; simp [h c hc]

/-- The segments of the output: `mk` holds the marks of the first code line, then one segment for
each pending blank line and for each remaining line. -/
theorem enc_segments (M : Marks) (hnl : isMark M '\n' = false) (cur : Str) (m k : Nat)
    (ls : List Str) (hls : ∀ l ∈ ls, '\n' ∉ l) (hpl : ∀ l ∈ ls, ∀ c ∈ l, isMark M c = false)
    (out : Str) (ho : enc M cur m k ls = .ok out) :
    ∃ mk segs, lines out = mk :: (List.replicate m [] ++ segs) ∧
      (∀ c ∈ mk, isMark M c = true) ∧
      segs.map (unmarked M) = ls.map (fun l => lstrip (rstrip l)) := by
  induction ls generalizing cur m k out with
  | nil =>
    simp only [enc, Except.ok.injEq] at ho
    subst ho
    have hd := not_nl_of_marks hnl (dedent_marks M cur)
    refine ⟨dedentSymbols M cur, [], ?_, dedent_marks M cur, rfl⟩
    cases m with
    | zero => simpa [lines] using split_of_not_mem hd
    | succ m =>
      rw [List.replicate_succ, lines_append_nl _ _ hd]
      have := lines_replicate m []
      simp only [List.append_nil] at this
      rw [this]
      have h2 : lines ([] : Str) = [[]] := rfl
      rw [h2, ← List.replicate_succ']
      simp
  | cons l ls ih =>
    have ih := ih (hls := fun l' h' => hls l' (by simp [h']))
      (hpl := fun l' h' => hpl l' (by simp [h']))
    simp only [enc] at ho
    split at ho
    · rename_i hb
      obtain ⟨mk, segs, h1, h2, h3⟩ := ih _ _ _ _ ho
      refine ⟨mk, [] :: segs, ?_, h2, ?_⟩
      · rw [h1, List.replicate_succ']; simp
      · simp only [List.map_cons, h3, hb]; rfl
    · split at ho
      · cases he : enc M (leading (rstrip l)) 0 (k + 1) ls with
        | error e => rw [he] at ho; simp at ho
        | ok r =>
          rw [he] at ho
          simp only [Except.ok.injEq] at ho
          subst ho
          obtain ⟨mk, segs, h1, h2, h3⟩ := ih _ _ _ _ he
          simp only [List.replicate_zero, List.nil_append] at h1
          have htl : '\n' ∉ lstrip (rstrip l) := fun h => hls l (by simp) (mem_rstrip (mem_lstrip h))
          obtain ⟨s0, sg, e1, e2⟩ := lines_plain_append (lstrip (rstrip l)) r htl
          rw [h1] at e1
          simp only [List.cons.injEq] at e1
          obtain ⟨rfl, rfl⟩ := e1
          refine ⟨change M cur (leading (rstrip l)), (lstrip (rstrip l) ++ mk) :: segs, ?_,
            change_marks _ _ _, ?_⟩
          · have hc := not_nl_of_marks hnl (change_marks M cur (leading (rstrip l)))
            have e : change M cur (leading (rstrip l)) ++ '\n' :: List.replicate m '\n' ++
                lstrip (rstrip l) ++ r = change M cur (leading (rstrip l)) ++
                '\n' :: (List.replicate m '\n' ++ (lstrip (rstrip l) ++ r)) := by simp
            rw [e, lines_append_nl _ _ hc, lines_replicate, e2]
          · simp only [List.map_cons, h3, List.cons.injEq, and_true]
            have hp : ∀ c ∈ lstrip (rstrip l), isMark M c = false :=
              fun c hc => hpl l (by simp) c (mem_rstrip (mem_lstrip hc))
            have : unmarked M (lstrip (rstrip l) ++ mk) =
                unmarked M (lstrip (rstrip l)) ++ unmarked M mk := by simp [unmarked]
            rw [this, unmarked_plain hp, unmarked_marks h2]; simp
      · cases ho

theorem indentAfter_append (M : Marks) (ind a b : Str) :
    indentAfter M ind (a ++ b) = indentAfter M (indentAfter M ind a) b := by
  induction a generalizing ind with
  | nil => rfl
  | cons c a ih =>
    simp only [List.cons_append, indentAfter]
    split
    · exact ih _
    split
    · exact ih _
    split
    · exact ih _
    · exact ih _

theorem indentAfter_plain (M : Marks) (ind s : Str) (h : ∀ c ∈ s, isMark M c = false) :
    indentAfter M ind s = ind := by
  induction s with
  | nil => rfl
  | cons c s ih =>
    have hc := h c (by simp)
    simp only [isMark, Bool.or_eq_false_iff, beq_eq_false_iff_ne] at hc
    simp [indentAfter, hc, ih (fun d hd => h d (by simp [hd]))]

/-- Only spaces and tabs. -/
def SpaceTab (s : Str) : Prop := ∀ c ∈ s, c = ' ' ∨ c = '\t'

theorem indentAfter_indent {M : Marks} (hd : Marks.Distinct M) (cur inc : Str)
    (h : SpaceTab inc) : indentAfter M cur (indentSymbols M inc) = cur ++ inc := by
  have hn := distinct_ne hd
  induction inc generalizing cur with
  | nil => simp [indentSymbols, indentAfter]
  | cons c inc ih =>
    have ih := ih (cur ++ [c]) (fun d hd => h d (by simp [hd]))
    rcases h c (by simp) with rfl | rfl
    · simp only [indentSymbols, List.map_cons, indentAfter, if_true] at ih ⊢
      rw [ih]; simp
    · have h1 : M.indentT ≠ M.indentS := fun e => hn.2.1 e.symm
      have h2 : ¬ ('\t' = ' ') := by decide
      simp only [indentSymbols, List.map_cons, h2, if_false, indentAfter, h1, if_true] at ih ⊢
      rw [ih]; simp

theorem indentAfter_dedent {M : Marks} (hd : Marks.Distinct M) (cur dec : Str) :
    indentAfter M (cur ++ dec) (dedentSymbols M dec) = cur := by
  have hn := distinct_ne hd
  have h1 : M.dedentS ≠ M.indentS := fun e => hn.1 e.symm
  have h2 : M.dedentT ≠ M.indentS := fun e => hn.2.2.1 e.symm
  have h3 : M.dedentT ≠ M.indentT := fun e => hn.2.2.2.2.2 e.symm
  induction dec using List.reverseRecOn with
  | nil => simp [dedentSymbols, indentAfter]
  | append_singleton dec c ih =>
    have e : (cur ++ (dec ++ [c])).dropLast = cur ++ dec := by
      rw [← List.append_assoc]; simp
    by_cases hc : c = ' '
    · subst hc
      simp only [dedentSymbols, List.reverse_append, List.reverse_singleton, List.singleton_append,
        List.map_cons, if_true, indentAfter, h1, if_false, hn.2.2.2.1, true_or, e]
      exact ih
    · simp only [dedentSymbols, List.reverse_append, List.reverse_singleton, List.singleton_append,
        List.map_cons, if_true, indentAfter, h2, h3, if_false, hc, or_true, e]
      exact ih

theorem indentAfter_change {M : Marks} (hd : Marks.Distinct M) (cur ind : Str)
    (hst : SpaceTab ind) (h : cur <+: ind ∨ ind <+: cur) :
    indentAfter M cur (change M cur ind) = ind := by
  unfold change
  by_cases h1 : cur <+: ind
  · rw [if_pos h1]
    obtain ⟨t, rfl⟩ := h1
    have := indentAfter_indent hd cur t (fun c hc => hst c (by simp [hc]))
    simpa using this
  · rw [if_neg h1]
    obtain ⟨t, rfl⟩ := h.resolve_left h1
    simpa using indentAfter_dedent hd ind t

theorem decodeSegs_replicate (M : Marks) (ind : Str) (m : Nat) (segs : List Str) :
    decodeSegs M ind (List.replicate m [] ++ segs) =
      List.replicate m [] ++ decodeSegs M ind segs := by
  induction m with
  | zero => rfl
  | succ m ih =>
    simp only [List.replicate_succ, List.cons_append, ← ih]
    rfl

theorem rstrip_of_blank {l : Str} (h : lstrip (rstrip l) = []) : rstrip l = [] :=
  rstrip_eq_nil_iff.2 (lstrip_rstrip_eq_nil.1 h)

theorem enc_decode {M : Marks} (hd : Marks.Distinct M) (hnl : isMark M '\n' = false)
    (cur : Str) (m k : Nat) (ls : List Str) (hls : ∀ l ∈ ls, '\n' ∉ l)
    (hpl : ∀ l ∈ ls, ∀ c ∈ l, isMark M c = false)
    (hst : ∀ l ∈ ls, SpaceTab (leading l))
    (out : Str) (ho : enc M cur m k ls = .ok out) :
    ∃ mk segs, lines out = mk :: (List.replicate m [] ++ segs) ∧
      (∀ c ∈ mk, isMark M c = true) ∧
      decodeSegs M (indentAfter M cur mk) segs = ls.map rstrip := by
  induction ls generalizing cur m k out with
  | nil =>
    have := enc_segments M hnl cur m k [] (by simp) (by simp) out ho
    obtain ⟨mk, segs, h1, h2, h3⟩ := this
    have : segs = [] := by simpa using h3
    subst this
    exact ⟨mk, [], h1, h2, rfl⟩
  | cons l ls ih =>
    have ih := ih (hls := fun l' h' => hls l' (by simp [h']))
      (hpl := fun l' h' => hpl l' (by simp [h'])) (hst := fun l' h' => hst l' (by simp [h']))
    simp only [enc] at ho
    split at ho
    · rename_i hb
      obtain ⟨mk, segs, h1, h2, h3⟩ := ih _ _ _ _ ho
      refine ⟨mk, [] :: segs, ?_, h2, ?_⟩
      · rw [h1, List.replicate_succ']; simp
      · simp only [decodeSegs, List.map_cons, rstrip_of_blank hb]
        have e : indentAfter M (indentAfter M cur mk) [] = indentAfter M cur mk := rfl
        rw [e, h3]; rfl
    · rename_i hb
      split at ho
      · rename_i hc
        cases he : enc M (leading (rstrip l)) 0 (k + 1) ls with
        | error e => rw [he] at ho; simp at ho
        | ok r =>
          rw [he] at ho
          simp only [Except.ok.injEq] at ho
          subst ho
          obtain ⟨mk, segs, h1, h2, h3⟩ := ih _ _ _ _ he
          simp only [List.replicate_zero, List.nil_append] at h1
          have htl : '\n' ∉ lstrip (rstrip l) := fun h => hls l (by simp) (mem_rstrip (mem_lstrip h))
          obtain ⟨s0, sg, e1, e2⟩ := lines_plain_append (lstrip (rstrip l)) r htl
          rw [h1] at e1
          simp only [List.cons.injEq] at e1
          obtain ⟨rfl, rfl⟩ := e1
          refine ⟨change M cur (leading (rstrip l)), (lstrip (rstrip l) ++ mk) :: segs, ?_,
            change_marks _ _ _, ?_⟩
          · have hc := not_nl_of_marks hnl (change_marks M cur (leading (rstrip l)))
            have e : change M cur (leading (rstrip l)) ++ '\n' :: List.replicate m '\n' ++
                lstrip (rstrip l) ++ r = change M cur (leading (rstrip l)) ++
                '\n' :: (List.replicate m '\n' ++ (lstrip (rstrip l) ++ r)) := by simp
            rw [e, lines_append_nl _ _ hc, lines_replicate, e2]
          · have hp : ∀ c ∈ lstrip (rstrip l), isMark M c = false :=
              fun c hc => hpl l (by simp) c (mem_rstrip (mem_lstrip hc))
            have hu : unmarked M (lstrip (rstrip l) ++ mk) = lstrip (rstrip l) := by
              have : unmarked M (lstrip (rstrip l) ++ mk) =
                unmarked M (lstrip (rstrip l)) ++ unmarked M mk := by simp [unmarked]
              rw [this, unmarked_plain hp, unmarked_marks h2]; simp
            have hnb : NonBlank l := by
              by_contra hn; exact hb (lstrip_rstrip_eq_nil.2 hn)
            have hst' : SpaceTab (leading (rstrip l)) := by
              rw [leading_rstrip hnb]; exact hst l (by simp)
            simp only [decodeSegs, List.map_cons, hu, hb, if_false, List.cons.injEq]
            rw [indentAfter_change hd _ _ hst' hc, leading_append_lstrip, indentAfter_append,
              indentAfter_plain _ _ _ hp]
            exact ⟨rfl, h3⟩
      · cases ho

/-! ### Errors -/

/-- The first incompatible line, by recursion: `cur` is the indentation in force. -/
def firstBad : Str → List Str → Option Nat
  | _, [] => none
  | cur, l :: ls =>
    if NonBlank l then
      if cur <+: leading l ∨ leading l <+: cur then (firstBad (leading l) ls).map (· + 1)
      else some 0
    else (firstBad cur ls).map (· + 1)

theorem enc_error (M : Marks) (cur : Str) (m k : Nat) (ls : List Str) :
    match firstBad cur ls with
    | some n => enc M cur m k ls = .error (.indentation (k + n + 1))
    | none => ∃ out, enc M cur m k ls = .ok out := by
  induction ls generalizing cur m k with
  | nil => exact ⟨_, rfl⟩
  | cons l ls ih =>
    simp only [firstBad, enc]
    by_cases hn : NonBlank l
    · have hb : ¬ lstrip (rstrip l) = [] := fun e => lstrip_rstrip_eq_nil.1 e hn
      simp only [hn, if_true, hb, if_false, leading_rstrip hn]
      by_cases hc : cur <+: leading l ∨ leading l <+: cur
      · simp only [hc, if_true]
        have := ih (leading l) 0 (k + 1)
        cases hf : firstBad (leading l) ls with
        | none =>
          rw [hf] at this
          obtain ⟨out, ho⟩ := this
          simp [ho]
        | some n =>
          rw [hf] at this
          simp only at this
          simp only [Option.map_some, this]
          congr 2; omega
      · simp [hc]
    · have hb := lstrip_rstrip_eq_nil.2 hn
      simp only [hn, if_false, hb, if_true]
      have := ih cur (m + 1) (k + 1)
      cases hf : firstBad cur ls with
      | none => rw [hf] at this; simpa using this
      | some n =>
        rw [hf] at this
        simp only at this
        simp only [Option.map_some, this]
        congr 2; omega

/-- Indentation in force after some lines, starting from `cur`. -/
def indentFrom (cur : Str) (ls : List Str) : Str :=
  match (ls.filter (fun l => decide (NonBlank l))).getLast? with
  | some l => leading l
  | none => cur

theorem indentFrom_cons (cur l : Str) (ls : List Str) :
    indentFrom cur (l :: ls) = indentFrom (if NonBlank l then leading l else cur) ls := by
  unfold indentFrom
  by_cases h : NonBlank l
  · simp only [h, decide_true, List.filter_cons_of_pos, if_true]
    cases ls.filter (fun l => decide (NonBlank l)) with
    | nil => simp
    | cons a as =>
      rw [List.getLast?_cons_cons]
      cases hl : (a :: as).getLast? with
      | none => simp at hl
      | some x => rfl
  · simp [h]

/-- `BadLine` relative to a starting indentation. -/
def BadFrom (cur : Str) (ls : List Str) (k : Nat) : Prop :=
  ∃ l, ls[k]? = some l ∧ NonBlank l ∧
    ¬ indentFrom cur (ls.take k) <+: leading l ∧ ¬ leading l <+: indentFrom cur (ls.take k)

theorem badFrom_nil_iff (ls : List Str) (k : Nat) : BadFrom [] ls k ↔ BadLine ls k := Iff.rfl

theorem badFrom_succ (cur l : Str) (ls : List Str) (k : Nat) :
    BadFrom cur (l :: ls) (k + 1) ↔ BadFrom (if NonBlank l then leading l else cur) ls k := by
  unfold BadFrom
  simp only [List.getElem?_cons_succ, List.take_succ_cons, indentFrom_cons]

theorem firstBad_spec (cur : Str) (ls : List Str) :
    match firstBad cur ls with
    | some n => BadFrom cur ls n ∧ ∀ j < n, ¬ BadFrom cur ls j
    | none => ∀ j, ¬ BadFrom cur ls j := by
  induction ls generalizing cur with
  | nil => rintro j ⟨l, hl, _⟩; simp at hl
  | cons l ls ih =>
    have hzero : BadFrom cur (l :: ls) 0 ↔
        NonBlank l ∧ ¬ (cur <+: leading l ∨ leading l <+: cur) := by
      unfold BadFrom
      simp [indentFrom]
    have step : ∀ c', c' = (if NonBlank l then leading l else cur) →
        ¬ BadFrom cur (l :: ls) 0 →
        (match (firstBad c' ls).map (· + 1) with
        | some n => BadFrom cur (l :: ls) n ∧ ∀ j < n, ¬ BadFrom cur (l :: ls) j
        | none => ∀ j, ¬ BadFrom cur (l :: ls) j) := by
      rintro c' rfl h0
      have := ih (if NonBlank l then leading l else cur)
      cases hf : firstBad (if NonBlank l then leading l else cur) ls with
      | none =>
        rw [hf] at this
        simp only [Option.map_none]
        intro j
        cases j with
        | zero => exact h0
        | succ j => rw [badFrom_succ]; exact this j
      | some n =>
        rw [hf] at this
        simp only [Option.map_some]
        refine ⟨(badFrom_succ _ _ _ _).2 this.1, ?_⟩
        intro j hj
        cases j with
        | zero => exact h0
        | succ j => rw [badFrom_succ]; exact this.2 j (by omega)
    simp only [firstBad]
    by_cases hn : NonBlank l
    · by_cases hc : cur <+: leading l ∨ leading l <+: cur
      · simp only [hn, if_true, hc]
        exact step _ (by simp [hn]) (by rw [hzero]; tauto)
      · simp only [hn, if_true, hc, if_false]
        exact ⟨hzero.2 ⟨hn, hc⟩, fun j hj => absurd hj (by omega)⟩
    · simp only [hn, if_false]
      exact step _ (by simp [hn]) (by rw [hzero]; tauto)

/-! ### Choice of marks -/

theorem findFree_spec (text : List Nat) (fuel code : Nat)
    (h : text.length < fuel + (text.filter (· < code)).length) :
    code ≤ findFree text fuel code ∧ findFree text fuel code ∉ text := by
  induction fuel generalizing code with
  | zero =>
    have := List.length_filter_le (fun x => decide (x < code)) text
    omega
  | succ fuel ih =>
    simp only [findFree]
    by_cases hm : code ∈ text
    · have he : text.elem code = true := by simpa using hm
      rw [if_pos he]
      have hlt : (text.filter (· < code)).length < (text.filter (· < code + 1)).length := by
        clear ih h he
        induction text with
        | nil => simp at hm
        | cons a t iht =>
          have hle : (t.filter (· < code)).length ≤ (t.filter (· < code + 1)).length := by
            rw [← List.countP_eq_length_filter, ← List.countP_eq_length_filter]
            apply List.countP_mono_left
            intro x _ hx; simp at *; omega
          rcases List.mem_cons.1 hm with rfl | hm
          · simp; omega
          · have := iht hm
            by_cases h1 : a < code
            · have h2 : a < code + 1 := by omega
              simp [h1, h2, this]
            · by_cases h2 : a < code + 1
              · simp [h1, h2]; omega
              · simp [h1, h2, this]
      obtain ⟨h1, h2⟩ := ih (code + 1) (by omega)
      exact ⟨by omega, h2⟩
    · have he : text.elem code = false := by simpa using hm
      simp [hm]

theorem findFree_spec' (text : List Nat) (code : Nat) :
    code ≤ findFree text (text.length + 1) code ∧ findFree text (text.length + 1) code ∉ text :=
  findFree_spec text _ code (by omega)

/-- Codes between the start and the first free one all occur in the text. -/
theorem findFree_min (text : List Nat) (fuel code x : Nat) (h1 : code ≤ x)
    (h2 : x < findFree text fuel code) : x ∈ text := by
  induction fuel generalizing code with
  | zero => simp [findFree] at h2; omega
  | succ fuel ih =>
    simp only [findFree] at h2
    split at h2
    · rename_i he
      by_cases hx : x = code
      · subst hx; simpa using he
      · exact ih (code + 1) (by omega) h2
    · omega

theorem pickChars_spec (text : List Nat) (n code : Nat) :
    (pickChars text n code).length = n ∧ (pickChars text n code).Pairwise (· < ·) ∧
    (∀ c ∈ pickChars text n code, code ≤ c ∧ c ∉ text) := by
  induction n generalizing code with
  | zero => simp [pickChars]
  | succ n ih =>
    obtain ⟨h1, h2, h3⟩ := ih (findFree text (text.length + 1) code + 1)
    obtain ⟨f1, f2⟩ := findFree_spec' text code
    simp only [pickChars, List.length_cons, List.pairwise_cons, List.mem_cons, forall_eq_or_imp]
    refine ⟨by omega, ⟨?_, h2⟩, ⟨f1, f2⟩, ?_⟩
    · intro c hc; have := (h3 c hc).1; omega
    · intro c hc; have := h3 c hc; exact ⟨by omega, this.2⟩

end Verif
