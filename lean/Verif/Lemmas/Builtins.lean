import Verif.Model.Builtins
import Verif.Model.Paths
import Verif.Spec.Builtins
import Verif.Lemmas.Lines

/-! Helper lemmas for the built-in functions. -/

namespace Verif
open Py Spec

theorem mem_takeWhile_imp' {p : Char → Bool} {x : Char} {l : Str} (h : x ∈ l.takeWhile p) :
    p x = true := by
  induction l with
  | nil => simp at h
  | cons c l ih =>
    rw [List.takeWhile_cons] at h
    split at h
    · rename_i hc
      rcases List.mem_cons.1 h with e | h
      · rw [e]; exact hc
      · exact ih h
    · simp at h

theorem idxOf_cons_ne' {α} [DecidableEq α] {a y : α} (l : List α) (h : a ≠ y) :
    (y :: l).idxOf a = l.idxOf a + 1 := by
  rw [List.idxOf_cons]
  have : (y == a) = false := by simpa using Ne.symm h
  simp [this]

/-! ### merge -/

theorem words_exist (s : Str) : ∃ ws, Words s ws := by
  suffices h : ∀ n, ∀ s : Str, s.length ≤ n → ∃ ws, Words s ws from h _ s (Nat.le_refl _)
  intro n
  induction n with
  | zero =>
    intro s hs
    have : s = [] := by simpa using hs
    subst this
    exact ⟨[], .blank (by simp)⟩
  | succ n ih =>
    intro s hs
    set g := s.takeWhile isSpace with hg
    set t := s.dropWhile isSpace with ht
    have hst : s = g ++ t := (List.takeWhile_append_dropWhile).symm
    have hgs : ∀ c ∈ g, isSpace c = true := fun c hc => mem_takeWhile_imp' hc
    cases htt : t with
    | nil => exact ⟨[], by rw [hst, htt, List.append_nil]; exact .blank hgs⟩
    | cons c u =>
      have hc : isSpace c = false := by
        have := List.head?_dropWhile_not isSpace s
        rw [← ht, htt] at this
        simpa using this
      set w := t.takeWhile (fun c => !isSpace c) with hw
      set r := t.dropWhile (fun c => !isSpace c) with hr
      have htr : t = w ++ r := (List.takeWhile_append_dropWhile).symm
      have hwne : w ≠ [] := by rw [hw, htt]; simp [hc]
      have hlen : r.length ≤ n := by
        have h1 : s.length = g.length + (w.length + r.length) := by
          conv_lhs => rw [hst, htr]
          simp
        have h2 : 0 < w.length := List.length_pos_iff.2 hwne
        omega
      obtain ⟨ws, hws⟩ := ih r hlen
      refine ⟨w :: ws, ?_⟩
      have : s = g ++ w ++ r := by rw [hst, htr, List.append_assoc]
      rw [this]
      refine .word hgs hwne (fun c hc => by simpa using mem_takeWhile_imp' hc) ?_ hws
      intro d hd
      have := List.head?_dropWhile_not (fun c => !isSpace c) t
      rw [← hr, hd] at this
      simpa using this

theorem mergeScan_run (b : Bool) (w : Str) (hw : ∀ c ∈ w, isSpace c = false) (s : Str)
    (hne : w ≠ []) : mergeScan b (w ++ s) = w ++ mergeScan false s := by
  induction w generalizing b with
  | nil => exact absurd rfl hne
  | cons c w ih =>
    have hc := hw c (by simp)
    simp only [List.cons_append, mergeScan, hc]
    by_cases h : w = []
    · subst h; simp
    · rw [ih false (fun d hd => hw d (by simp [hd])) h]; simp

theorem mergeScan_gap_true (g : Str) (hg : ∀ c ∈ g, isSpace c = true) (s : Str) :
    mergeScan true (g ++ s) = mergeScan true s := by
  induction g with
  | nil => rfl
  | cons c g ih =>
    simp only [List.cons_append, mergeScan, hg c (by simp), if_true]
    exact ih (fun d hd => hg d (by simp [hd]))

theorem mergeScan_gap_false (g : Str) (hg : ∀ c ∈ g, isSpace c = true) (hne : g ≠ []) (s : Str) :
    mergeScan false (g ++ s) = ' ' :: mergeScan true s := by
  cases g with
  | nil => exact absurd rfl hne
  | cons c g =>
    simp only [List.cons_append, mergeScan, hg c (by simp), if_true]
    simp [mergeScan_gap_true g (fun d hd => hg d (by simp [hd]))]

/-- What the substitution yields: the words, joined by single spaces, possibly with a space before
and/or after. -/
theorem mergeScan_words {s : Str} {ws : List Str} (h : Words s ws) :
    ∃ a b : Str, (∀ c ∈ a, c = ' ') ∧ (∀ c ∈ b, c = ' ') ∧
      mergeScan true s = join [' '] ws ++ b ∧
      mergeScan false s = a ++ join [' '] ws ++ b ∧
      (a = [] ∨ a = [' ']) ∧ (∀ c, s.head? = some c → isSpace c = true → a = [' ']) ∧
      (s = [] → ws = [] ∧ a = [] ∧ b = []) ∧ (ws = [] → b = []) := by
  induction h with
  | @blank g hg =>
    by_cases hne : g = []
    · subst hne
      exact ⟨[], [], by simp, by simp, by simp [mergeScan, join], by simp [mergeScan, join],
        by simp, by simp, by simp, by simp⟩
    · have h1 := mergeScan_gap_true g hg []
      have h2 := mergeScan_gap_false g hg hne []
      simp only [List.append_nil] at h1 h2
      refine ⟨[' '], [], by simp, by simp, by simp [h1, mergeScan, join],
        by simp [h2, mergeScan, join], by simp, by simp, by simp [hne], by simp⟩
  | @word g w rest ws hg hwne hw hrest _ ih =>
    obtain ⟨a, b, ha, hb, h1, h2, h3, h4, h5, h6⟩ := ih
    have key : w ++ mergeScan false rest = join [' '] (w :: ws) ++ (if ws = [] then a else b) := by
      rw [h2]
      cases ws with
      | nil => simp [join, h6]
      | cons v vs =>
        have hr : rest ≠ [] := by intro e; have := h5 e; simp at this
        obtain ⟨c, r', hr'⟩ := List.exists_cons_of_ne_nil hr
        have := h4 c (by simp [hr']) (hrest c (by simp [hr']))
        rw [this, join_cons_cons]
        simp
    have hbb : ∀ c ∈ (if ws = [] then a else b), c = ' ' := by
      split
      · exact ha
      · exact hb
    refine ⟨if g = [] then [] else [' '], if ws = [] then a else b, ?_, hbb, ?_, ?_, ?_, ?_, ?_, ?_⟩
    · split <;> simp
    · rw [List.append_assoc, mergeScan_gap_true g hg, mergeScan_run _ _ hw _ hwne, key]
    · by_cases hgn : g = []
      · subst hgn
        rw [List.nil_append, mergeScan_run _ _ hw _ hwne, key]; simp
      · rw [List.append_assoc, mergeScan_gap_false g hg hgn, mergeScan_run _ _ hw _ hwne, key]
        simp [hgn]
    · split <;> simp
    · intro c hc hsp
      split
      · rename_i e; subst e
        obtain ⟨d, w', hw'⟩ := List.exists_cons_of_ne_nil hwne
        subst hw'
        simp only [List.nil_append, List.cons_append, List.head?_cons, Option.some.injEq] at hc
        rw [← hc, hw d (by simp)] at hsp
        exact absurd hsp (by simp)
      · rfl
    · intro e
      simp only [List.append_eq_nil_iff] at e
      exact absurd e.1.2 hwne
    · intro e; simp at e

theorem words_mem {s : Str} {ws : List Str} (h : Words s ws) :
    ∀ w ∈ ws, w ≠ [] ∧ ∀ c ∈ w, isSpace c = false := by
  induction h with
  | blank => simp
  | word _ h1 h2 _ _ ih =>
    intro w hw
    rcases List.mem_cons.1 hw with e | hw
    · subst e; exact ⟨h1, h2⟩
    · exact ih w hw

theorem join_space_ends {ws : List Str} (hne : ws ≠ [])
    (h : ∀ w ∈ ws, w ≠ [] ∧ ∀ c ∈ w, isSpace c = false) :
    (∃ c, (join [' '] ws).head? = some c ∧ isSpace c = false) ∧
    (∃ c, (join [' '] ws).getLast? = some c ∧ isSpace c = false) := by
  induction ws with
  | nil => exact absurd rfl hne
  | cons w ws ih =>
    obtain ⟨hw1, hw2⟩ := h w (by simp)
    have hh : ∃ c, w.head? = some c ∧ isSpace c = false := by
      cases w with
      | nil => exact absurd rfl hw1
      | cons c w => exact ⟨c, rfl, hw2 c (by simp)⟩
    obtain ⟨c, hc, hcs⟩ := hh
    cases ws with
    | nil =>
      refine ⟨⟨c, hc, hcs⟩, ⟨w.getLast hw1, ?_, hw2 _ (List.getLast_mem hw1)⟩⟩
      simp [join, List.getLast?_eq_some_getLast hw1]
    | cons v vs =>
      obtain ⟨_, ⟨d, hd, hds⟩⟩ := ih (by simp) (fun x hx => h x (by simp [hx]))
      rw [join_cons_cons]
      refine ⟨⟨c, ?_, hcs⟩, ⟨d, ?_, hds⟩⟩
      · simp [hc]
      · rw [List.getLast?_append, hd]; rfl

theorem dropWhile_append_head {p : Char → Bool} {m t : Str} {c : Char} (h : m.head? = some c)
    (hc : p c = false) : (m ++ t).dropWhile p = m ++ t := by
  cases m with
  | nil => simp at h
  | cons d m =>
    simp only [List.head?_cons, Option.some.injEq] at h
    subst h
    simp [hc]

theorem strip_pad {a m b : Str} (ha : ∀ c ∈ a, isSpace c = true) (hb : ∀ c ∈ b, isSpace c = true)
    (hm : m = [] ∨ ((∃ c, m.head? = some c ∧ isSpace c = false) ∧
      (∃ c, m.getLast? = some c ∧ isSpace c = false))) :
    strip (a ++ m ++ b) = m := by
  rcases hm with e | ⟨⟨c, hc, hcs⟩, ⟨d, hd, hds⟩⟩
  · subst e
    have : rstrip (a ++ [] ++ b) = [] := by
      unfold rstrip
      rw [List.reverse_eq_nil_iff, dropWhile_eq_nil_iff']
      intro c hc
      simp only [List.append_nil, List.reverse_append, List.mem_append, List.mem_reverse] at hc
      rcases hc with hc | hc
      · exact hb c hc
      · exact ha c hc
    unfold strip
    rw [this]; rfl
  · have h1 : rstrip (a ++ m ++ b) = a ++ m := by
      unfold rstrip
      rw [List.reverse_append, dropWhile_append_of_all (fun c hc => hb c (List.mem_reverse.1 hc)),
        List.reverse_append]
      rw [dropWhile_append_head (c := d) (by rw [List.head?_reverse]; exact hd) hds]
      simp
    unfold strip
    rw [h1]
    unfold lstrip
    rw [dropWhile_append_of_all ha]
    have := dropWhile_append_head (p := isSpace) (t := []) hc hcs
    simpa using this

theorem merge_words {s : Str} {ws : List Str} (h : Words s ws) : merge s = join [' '] ws := by
  obtain ⟨a, b, ha, hb, _, h2, _⟩ := mergeScan_words h
  have hsp : isSpace ' ' = true := by decide
  unfold merge
  rw [h2]
  apply strip_pad
  · intro c hc; rw [ha c hc]; exact hsp
  · intro c hc; rw [hb c hc]; exact hsp
  · by_cases e : ws = []
    · left; subst e; rfl
    · right; exact join_space_ends e (words_mem h)

theorem words_join {ws : List Str} (h : ∀ w ∈ ws, w ≠ [] ∧ ∀ c ∈ w, isSpace c = false) :
    Words (join [' '] ws) ws ∧ Words (' ' :: join [' '] ws) ws := by
  have hsp : isSpace ' ' = true := by decide
  induction ws with
  | nil => exact ⟨.blank (by simp [join]), .blank (by simp [join, hsp])⟩
  | cons w ws ih =>
    obtain ⟨h1, h2⟩ := h w (by simp)
    have ih' := ih (fun x hx => h x (by simp [hx]))
    cases ws with
    | nil =>
      have e : join [' '] [w] = [] ++ w ++ [] := by simp [join]
      have e' : ' ' :: join [' '] [w] = [' '] ++ w ++ [] := by simp [join]
      rw [e', e]
      exact ⟨.word (by simp) h1 h2 (by simp) (.blank (by simp)),
        .word (by simp [hsp]) h1 h2 (by simp) (.blank (by simp))⟩
    | cons v vs =>
      have e : join [' '] (w :: v :: vs) = [] ++ w ++ (' ' :: join [' '] (v :: vs)) := by
        rw [join_cons_cons]; simp
      have e' : ' ' :: join [' '] (w :: v :: vs) = [' '] ++ w ++ (' ' :: join [' '] (v :: vs)) := by
        rw [join_cons_cons]; simp
      rw [e', e]
      exact ⟨.word (by simp) h1 h2 (by simp [hsp]) ih'.2,
        .word (by simp [hsp]) h1 h2 (by simp [hsp]) ih'.2⟩

theorem takeWhile_gap {p : Char → Bool} {g t : Str} (hg : ∀ c ∈ g, p c = true)
    (ht : ∀ c, t.head? = some c → p c = false) :
    (g ++ t).takeWhile p = g ∧ (g ++ t).dropWhile p = t := by
  induction g with
  | nil =>
    cases t with
    | nil => simp
    | cons c t => simp [ht c (by simp)]
  | cons c g ih =>
    have := ih (fun d hd => hg d (by simp [hd]))
    simp [hg c (by simp), this.1, this.2]

/-- The list of maximal runs is unique. -/
theorem words_unique {s : Str} {ws ws' : List Str} (h : Words s ws) (h' : Words s ws') :
    ws = ws' := by
  induction h generalizing ws' with
  | @blank g hg =>
    generalize hs : g = s' at h'
    cases h' with
    | blank => rfl
    | @word g' w rest ws hg' hne hw =>
      obtain ⟨c, w', e⟩ := List.exists_cons_of_ne_nil hne
      have h1 := hg c (by rw [hs]; simp [e])
      rw [hw c (by simp [e])] at h1
      simp at h1
  | @word g w rest ws hg hne hw hrest _ ih =>
    have hwh : ∀ c, (w ++ rest).head? = some c → isSpace c = false := by
      intro c hc
      cases w with
      | nil => exact absurd rfl hne
      | cons d w =>
        simp only [List.cons_append, List.head?_cons, Option.some.injEq] at hc
        rw [← hc]; exact hw d (by simp)
    have A := takeWhile_gap hg hwh
    have B := takeWhile_gap (p := fun c => !isSpace c) (g := w) (t := rest)
      (fun c hc => by simp [hw c hc]) (fun c hc => by simp [hrest c hc])
    generalize hs : g ++ w ++ rest = s' at h'
    cases h' with
    | @blank _ hg' =>
      obtain ⟨c, w', e⟩ := List.exists_cons_of_ne_nil hne
      have h1 := hg' c (by rw [← hs]; simp [e])
      rw [hw c (by simp [e])] at h1
      simp at h1
    | @word g' w' rest' ws' hg' hne' hw' hrest' h'' =>
      have hwh' : ∀ c, (w' ++ rest').head? = some c → isSpace c = false := by
        intro c hc
        cases w' with
        | nil => exact absurd rfl hne'
        | cons d w =>
          simp only [List.cons_append, List.head?_cons, Option.some.injEq] at hc
          rw [← hc]; exact hw' d (by simp)
      have A' := takeWhile_gap hg' hwh'
      have B' := takeWhile_gap (p := fun c => !isSpace c) (g := w') (t := rest')
        (fun c hc => by simp [hw' c hc]) (fun c hc => by simp [hrest' c hc])
      rw [List.append_assoc, List.append_assoc] at hs
      have e1 : w ++ rest = w' ++ rest' := by
        rw [← A.2, ← A'.2, hs]
      have e2 : w = w' := by rw [← B.1, ← B'.1, e1]
      have e3 : rest = rest' := by rw [← B.2, ← B'.2, e1]
      subst e2; subst e3
      rw [ih h'']

/-! ### unique -/

theorem uniqueList_spec {α} [DecidableEq α] (l seen : List α) :
    (∀ x, x ∈ uniqueList seen l ↔ x ∈ l ∧ x ∉ seen) ∧ (uniqueList seen l).Nodup ∧
    (uniqueList seen l).Pairwise (fun a b => l.idxOf a < l.idxOf b) := by
  induction l generalizing seen with
  | nil => simp [uniqueList]
  | cons y l ih =>
    simp only [uniqueList]
    split
    · rename_i hy
      obtain ⟨h1, h2, h3⟩ := ih seen
      refine ⟨?_, h2, ?_⟩
      · intro x
        rw [h1, List.mem_cons]
        constructor
        · rintro ⟨a, b⟩; exact ⟨Or.inr a, b⟩
        · rintro ⟨a | a, b⟩
          · subst a; exact absurd hy b
          · exact ⟨a, b⟩
      · refine h3.imp_of_mem ?_
        intro a b ha hb hab
        have ha' : a ≠ y := by rintro rfl; exact ((h1 _).1 ha).2 hy
        have hb' : b ≠ y := by rintro rfl; exact ((h1 _).1 hb).2 hy
        rw [idxOf_cons_ne' _ ha', idxOf_cons_ne' _ hb']
        omega
    · rename_i hy
      obtain ⟨h1, h2, h3⟩ := ih (y :: seen)
      have hn : y ∉ uniqueList (y :: seen) l := by
        intro h; exact ((h1 _).1 h).2 (by simp)
      refine ⟨?_, List.nodup_cons.2 ⟨hn, h2⟩, List.pairwise_cons.2 ⟨?_, ?_⟩⟩
      · intro x
        rw [List.mem_cons, h1, List.mem_cons, List.mem_cons, not_or]
        constructor
        · rintro (a | ⟨a, b, c⟩)
          · subst a; exact ⟨Or.inl rfl, hy⟩
          · exact ⟨Or.inr a, c⟩
        · rintro ⟨a | a, b⟩
          · exact Or.inl a
          · by_cases e : x = y
            · exact Or.inl e
            · exact Or.inr ⟨a, e, b⟩
      · intro b hb
        have : b ≠ y := by rintro rfl; exact hn hb
        rw [List.idxOf_cons_self, idxOf_cons_ne' _ this]
        omega
      · refine h3.imp_of_mem ?_
        intro a b ha hb hab
        have ha' : a ≠ y := by rintro rfl; exact hn ha
        have hb' : b ≠ y := by rintro rfl; exact hn hb
        rw [idxOf_cons_ne' _ ha', idxOf_cons_ne' _ hb']
        omega

theorem splitlinesAux_no_newline (cr : Bool) (cur s : Str) (hcur : '\n' ∉ cur) :
    ∀ l ∈ splitlinesAux cr cur s, '\n' ∉ l := by
  induction s generalizing cr cur with
  | nil =>
    intro l hl
    simp only [splitlinesAux] at hl
    split at hl
    · simp at hl
    · simp only [List.mem_singleton] at hl; subst hl; simpa using hcur
  | cons c s ih =>
    intro l hl
    simp only [splitlinesAux] at hl
    split at hl
    · exact ih _ _ hcur l hl
    · split at hl
      · rcases List.mem_cons.1 hl with e | hl
        · subst e; simpa using hcur
        · exact ih _ _ (by simp) l hl
      · rename_i hb
        refine ih _ _ ?_ l hl
        intro h
        rcases List.mem_cons.1 h with e | h
        · subst e; exact hb (by decide)
        · exact hcur h

theorem mem_strip {c : Char} {l : Str} (h : c ∈ strip l) : c ∈ l := by
  unfold strip lstrip rstrip at h
  have := List.mem_of_mem_dropWhile h
  rw [List.mem_reverse] at this
  have := List.mem_of_mem_dropWhile this
  simpa using this
where
  List.mem_of_mem_dropWhile {p : Char → Bool} {x : Char} {l : List Char} (h : x ∈ l.dropWhile p) :
      x ∈ l := (List.dropWhile_sublist p).mem h

theorem uniqueInput_no_newline (text : Str) (b : Bool) : ∀ l ∈ uniqueInput text b, '\n' ∉ l := by
  intro l hl
  unfold uniqueInput at hl
  have hs := splitlinesAux_no_newline false [] text (by simp)
  cases b with
  | false => exact hs l hl
  | true =>
    simp only [if_true, List.mem_filter, List.mem_map] at hl
    obtain ⟨⟨m, hm, e⟩, _⟩ := hl
    subst e
    exact fun h => hs m hm (mem_strip h)

/-! ### splitlines -/

theorem isLineBreak_iff (c : Char) : isLineBreak c = true ↔ c.toNat ∈ lineEnds := by
  simp only [isLineBreak, lineEnds, List.mem_cons, List.not_mem_nil, or_false, Bool.or_eq_true,
    Bool.and_eq_true, decide_eq_true_eq, beq_iff_eq]
  omega

theorem splitlinesAux_line {l : Str} (hl : OfOneLine l) (cur s : Str) :
    splitlinesAux false cur (l ++ s) = splitlinesAux false (l.reverse ++ cur) s := by
  induction l generalizing cur with
  | nil => rfl
  | cons c l ih =>
    have hc : isLineBreak c = false := by
      have := hl c (by simp)
      rw [← isLineBreak_iff] at this
      simpa using this
    simp only [List.cons_append, splitlinesAux, Bool.false_and, Bool.false_eq_true, if_false, hc]
    rw [ih (fun d hd => hl d (List.mem_cons_of_mem _ hd))]
    simp

theorem splitlinesAux_cr (s : Str) (hs : ∀ r, s ≠ '\n' :: r) :
    splitlinesAux true [] s = splitlinesAux false [] s := by
  cases s with
  | nil => rfl
  | cons c s =>
    have : c ≠ '\n' := fun e => hs s (by rw [e])
    simp [splitlinesAux, this]

theorem splitlines_of {s : Str} {ls : List Str} (h : SplitLines s ls) : splitlines s = ls := by
  unfold splitlines
  induction h with
  | nil => rfl
  | @last l h0 hl =>
    have := splitlinesAux_line hl [] []
    rw [List.append_nil] at this
    rw [this]
    simp [splitlinesAux, h0]
  | @pair l rest ls hl _ ih =>
    rw [splitlinesAux_line hl]
    have h1 : isLineBreak '\r' = true := by decide
    simp [splitlinesAux, h1, ih]
  | @single l rest c ls hl hc hr _ ih =>
    rw [splitlinesAux_line hl]
    have h1 : isLineBreak c = true := (isLineBreak_iff c).2 hc
    simp only [splitlinesAux, Bool.false_and, Bool.false_eq_true, if_false, h1, if_true, List.append_nil,
      List.reverse_reverse]
    congr 1
    by_cases e : c = '\r'
    · subst e
      rw [← ih]
      exact splitlinesAux_cr rest (hr rfl)
    · have : (c == '\r') = false := by simpa using e
      rw [this, ih]

theorem splitLines_exists (s : Str) : ∃ ls, SplitLines s ls := by
  have key : ∀ n (s : Str), s.length ≤ n → ∃ ls, SplitLines s ls := by
    intro n
    induction n with
    | zero =>
      intro s hs
      cases s with
      | nil => exact ⟨_, .nil⟩
      | cons => simp at hs
    | succ n ih =>
      intro s hs
      -- the first line
      have hsplit : s = s.takeWhile (fun c => !isLineBreak c) ++ s.dropWhile (fun c => !isLineBreak c) :=
        (List.takeWhile_append_dropWhile).symm
      have hone : OfOneLine (s.takeWhile (fun c => !isLineBreak c)) := by
        intro c hc
        have := List.all_takeWhile (l := s) (p := fun c => !isLineBreak c)
        rw [List.all_eq_true] at this
        have := this c hc
        rw [← isLineBreak_iff]
        simpa using this
      cases hd : s.dropWhile (fun c => !isLineBreak c) with
      | nil =>
        rw [hd, List.append_nil] at hsplit
        rw [← hsplit] at hone
        cases s with
        | nil => exact ⟨_, .nil⟩
        | cons c s => exact ⟨_, .last (by simp) hone⟩
      | cons c rest =>
        have hb : isLineBreak c = true := by
          have := List.head_dropWhile_not (fun c => !isLineBreak c) (l := s) (by rw [hd]; simp)
          simpa [hd] using this
        rw [hd] at hsplit
        have hlen : rest.length ≤ n := by
          have := congrArg List.length hsplit
          simp only [List.length_append, List.length_cons] at this
          omega
        rw [hsplit]
        by_cases hp : ∃ r, c = '\r' ∧ rest = '\n' :: r
        · obtain ⟨r, rfl, rfl⟩ := hp
          obtain ⟨ls, h⟩ := ih r (by simp only [List.length_cons] at hlen; omega)
          exact ⟨_, .pair hone h⟩
        · obtain ⟨ls, h⟩ := ih rest hlen
          exact ⟨_, .single hone ((isLineBreak_iff c).1 hb) (fun e r er => hp ⟨r, e, er⟩) h⟩
  exact key _ s (Nat.le_refl _)

/-! ### dedent -/

theorem dedentScan_false_line (l : Str) (hl : '\n' ∉ l) (s : Str) :
    dedentScan false (l ++ s) = l ++ dedentScan false s := by
  induction l with
  | nil => rfl
  | cons c l ih =>
    simp only [List.mem_cons, not_or] at hl
    have hb : (c == '\n') = false := by simpa using Ne.symm hl.1
    simp only [List.cons_append, dedentScan, hb]
    rw [ih hl.2]

theorem dedentScan_true_line (l : Str) (hl : '\n' ∉ l) (s : Str) :
    dedentScan true (l ++ s) =
      if NonBlank l then lstrip l ++ dedentScan false s else dedentScan true s := by
  induction l with
  | nil => simp [NonBlank]
  | cons c l ih =>
    simp only [List.mem_cons, not_or] at hl
    simp only [List.cons_append, dedentScan]
    by_cases hc : isSpace c = true
    · rw [if_pos hc, ih hl.2]
      have : NonBlank (c :: l) ↔ NonBlank l := by simp [NonBlank, hc]
      simp [this, lstrip, hc]
    · rw [if_neg hc, dedentScan_false_line l hl.2]
      have : NonBlank (c :: l) := ⟨c, by simp, by simpa using hc⟩
      simp [this, lstrip, hc]

/-- The result of a full `dedent` in terms of lines. -/
def dedentLines (ls : List Str) : Str :=
  let kept := (ls.filter (fun l => NonBlank l)).map lstrip
  join ['\n'] kept ++
    (if kept = [] then [] else if NonBlank (ls.getLastD []) then [] else ['\n'])

theorem dedentScan_join (l : Str) (ls : List Str) (h : ∀ m ∈ l :: ls, '\n' ∉ m) :
    dedentScan true (join ['\n'] (l :: ls)) = dedentLines (l :: ls) ∧
    dedentScan false (join ['\n'] (l :: ls)) =
      l ++ (if ls = [] then [] else '\n' :: dedentLines ls) := by
  induction ls generalizing l with
  | nil =>
    have hl := h l (by simp)
    have h1 := dedentScan_true_line l hl []
    have h2 := dedentScan_false_line l hl []
    simp only [List.append_nil, dedentScan] at h1 h2
    refine ⟨?_, by simp [join, h2]⟩
    by_cases hb : NonBlank l
    · simp [join, h1, hb, dedentLines]
    · simp [join, h1, hb, dedentLines]
  | cons m ms ih =>
    have hl := h l (by simp)
    obtain ⟨ih1, ih2⟩ := ih m (fun x hx => h x (by simp [hx]))
    have hnl : isSpace '\n' = true := by decide
    have e : join ['\n'] (l :: m :: ms) = l ++ '\n' :: join ['\n'] (m :: ms) := by
      rw [join_cons_cons]; simp
    rw [e, dedentScan_true_line l hl, dedentScan_false_line l hl]
    simp only [dedentScan, hnl, if_true, beq_self_eq_true, ih1]
    refine ⟨?_, by simp⟩
    by_cases hb : NonBlank l
    · have e1 : (l :: m :: ms).filter (fun l => decide (NonBlank l)) =
          l :: (m :: ms).filter (fun l => decide (NonBlank l)) := by
        simp [hb]
      have hlast : (l :: m :: ms).getLastD [] = (m :: ms).getLastD [] := by simp
      rw [if_pos hb]
      simp only [dedentLines, e1, hlast, List.map_cons]
      generalize hk : ((m :: ms).filter (fun l => decide (NonBlank l))).map lstrip = kept
      cases kept with
      | nil =>
        have hno : ¬ NonBlank ((m :: ms).getLastD []) := by
          intro hn
          have hmem : (m :: ms).getLastD [] ∈ m :: ms := by
            have : (m :: ms).getLastD [] = (m :: ms).getLast (by simp) := by
              simp [List.getLastD_eq_getLast?, List.getLast?_eq_some_getLast]
            rw [this]; exact List.getLast_mem _
          have := List.map_eq_nil_iff.1 hk
          have h3 := (List.filter_eq_nil_iff.1 this) _ hmem
          exact h3 (by simpa using hn)
        rw [if_neg hno]
        simp [join]
      | cons k ks =>
        rw [join_cons_cons]
        simp
    · have e1 : (l :: m :: ms).filter (fun l => decide (NonBlank l)) =
          (m :: ms).filter (fun l => decide (NonBlank l)) := by
        simp [hb]
      have hlast : (l :: m :: ms).getLastD [] = (m :: ms).getLastD [] := by simp
      rw [if_neg hb]
      simp only [dedentLines, e1, hlast]

theorem trimmed_lstrip {l : Str} (h : NonBlank l) : Trimmed l (lstrip l) := by
  obtain ⟨c, hc, hcs⟩ := h
  have hne : lstrip l ≠ [] := by
    intro e
    have := dropWhile_eq_nil_iff'.1 e c hc
    rw [hcs] at this; simp at this
  obtain ⟨d, u, e⟩ := List.exists_cons_of_ne_nil hne
  refine ⟨l.takeWhile isSpace, d, u, List.takeWhile_append_dropWhile.symm,
    fun d hd => mem_takeWhile_imp' hd, e, ?_⟩
  have := List.head?_dropWhile_not isSpace l
  unfold lstrip at e
  rw [e] at this
  simpa using this

end Verif
