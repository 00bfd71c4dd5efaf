import Verif.Model.Text
import Verif.Spec.Lines
import Verif.Lemmas.PyStr

/-! Lemmas on lines and indentation. -/

namespace Verif
open Py Spec

theorem lines_unique (s : Str) (ls : List Str) (h1 : ls ≠ []) (h2 : ∀ l ∈ ls, '\n' ∉ l)
    (h3 : join ['\n'] ls = s) : lines s = ls := by
  subst h3; exact split_join h1 h2

theorem lines_ne_nil (s : Str) : lines s ≠ [] := split_ne_nil _ _

theorem lines_inj {s t : Str} (h : lines s = lines t) : s = t := by
  rw [← join_split '\n' s, ← join_split '\n' t]
  unfold lines at h; rw [h]

theorem not_mem_lines {s l : Str} (h : l ∈ lines s) : '\n' ∉ l := not_mem_split _ _ l h

theorem mem_of_mem_lines {s l : Str} {c : Char} (hl : l ∈ lines s) (hc : c ∈ l) : c ∈ s := by
  rw [← join_split '\n' s]
  unfold lines at hl
  generalize split '\n' s = ls at hl
  induction ls with
  | nil => simp at hl
  | cons m ms ih =>
    rcases List.mem_cons.1 hl with rfl | hl
    · cases ms with
      | nil => simpa [join] using hc
      | cons k ks => simp [join, hc]
    · cases ms with
      | nil => simp at hl
      | cons k ks => simp only [join, List.mem_append]; exact Or.inr (ih hl)

theorem mapTail_length {α} (f : α → α) (l : List α) : (mapTail f l).length = l.length := by
  cases l <;> simp [mapTail]

/-- The scan of `add_indent` in terms of lines. -/
theorem addIndentScan_join (ind l : Str) (hl : '\n' ∉ l) (ls : List Str)
    (hls : ∀ m ∈ ls, '\n' ∉ m) :
    addIndentScan ind (join ['\n'] (l :: ls)) = join ['\n'] (l :: ls.map (shift ind)) := by
  induction ls generalizing l with
  | nil =>
    simp only [join, List.map_nil]
    induction l with
    | nil => rfl
    | cons c l ih =>
      simp only [List.mem_cons, not_or] at hl
      have : c ≠ '\n' := fun e => hl.1 e.symm
      simp [addIndentScan, this, ih hl.2]
  | cons m ms ih =>
    have ihm := ih m (hls m (by simp)) (fun k hk => hls k (by simp [hk]))
    induction l with
    | nil =>
      rw [join_cons_cons, List.map_cons, join_cons_cons]
      simp only [List.nil_append, List.singleton_append]
      cases m with
      | nil =>
        cases ms with
        | nil => simp [join, addIndentScan, shift]
        | cons k ks =>
          rw [join_cons_cons] at ihm ⊢
          simp only [List.nil_append, List.singleton_append] at ihm ⊢
          rw [addIndentScan]
          simp only [if_true]
          rw [ihm]
          simp [shift]
      | cons d m =>
        have hd : d ≠ '\n' := by
          have := hls (d :: m) (by simp); simp at this; exact fun e => this.1 e.symm
        rw [join_head_cons] at ihm ⊢
        rw [addIndentScan]
        simp only [if_true, hd, if_false]
        rw [ihm]
        simp only [shift, reduceCtorEq, if_false]
        congr 1
        cases ms with
        | nil => simp [join]
        | cons k ks => simp [join]
    | cons c l ihl =>
      simp only [List.mem_cons, not_or] at hl
      have : c ≠ '\n' := fun e => hl.1 e.symm
      rw [join_head_cons]
      simp only [addIndentScan, this, if_false]
      rw [ihl hl.2]
      simp [join_head_cons]

theorem lines_addIndent (text ind : Str) (h : '\n' ∉ ind) :
    lines (addIndent text ind) = mapTail (shift ind) (lines text) := by
  unfold addIndent
  split
  · rename_i e; subst e
    have : shift [] = id := by funext l; simp only [shift]; split <;> simp_all
    cases hl : lines text <;> simp [mapTail, this]
  · have hne := lines_ne_nil text
    have hm : ∀ l ∈ lines text, '\n' ∉ l := fun l hl => not_mem_lines hl
    cases hl : lines text with
    | nil => exact absurd hl hne
    | cons l ls =>
      rw [hl] at hm
      have ht : text = join ['\n'] (l :: ls) := by rw [← hl]; exact (join_split '\n' text).symm
      apply lines_unique _ _ (by simp [mapTail])
      · intro k hk
        rcases List.mem_cons.1 hk with rfl | hk
        · exact hm _ (by simp)
        · obtain ⟨j, hj, rfl⟩ := List.mem_map.1 hk
          have := hm j (by simp [hj])
          unfold shift; split <;> simp_all
      · rw [ht, addIndentScan_join ind l (hm l (by simp)) ls (fun k hk => hm k (by simp [hk]))]
        rfl

theorem prefix_of_prefix_append {w l s : Str} (h : '\n' ∉ w) (hp : w <+: l ++ '\n' :: s) :
    w <+: l := by
  induction l generalizing w with
  | nil =>
    cases w with
    | nil => simp
    | cons c w => obtain ⟨t, ht⟩ := hp; simp at ht; simp [ht.1] at h
  | cons d l ih =>
    cases w with
    | nil => simp
    | cons c w =>
      simp only [List.mem_cons, not_or] at h
      simp only [List.cons_append, List.cons_prefix_cons] at hp ⊢
      exact ⟨hp.1, ih h.2 hp.2⟩

theorem replaceAux_line (w new l s : Str) (hl : '\n' ∉ l) :
    replaceAux ('\n' :: w) new 0 (l ++ s) = l ++ replaceAux ('\n' :: w) new 0 s := by
  induction l with
  | nil => rfl
  | cons c l ih =>
    simp only [List.mem_cons, not_or] at hl
    simp [replaceAux, hl.1, ih hl.2]

/-- `replace('\n' + w, '\n')` in terms of lines. -/
theorem replace_join (w : Str) (hw : '\n' ∉ w) (l : Str) (hl : '\n' ∉ l) (ls : List Str)
    (hls : ∀ m ∈ ls, '\n' ∉ m) :
    replace (join ['\n'] (l :: ls)) ('\n' :: w) ['\n'] =
      join ['\n'] (l :: ls.map (unshift w)) := by
  unfold replace
  induction ls generalizing l with
  | nil =>
    have := replaceAux_line w ['\n'] l [] hl
    simpa [join, replaceAux] using this
  | cons m ms ih =>
    have hm := hls m (by simp)
    have hms : ∀ k ∈ ms, '\n' ∉ k := fun k hk => hls k (by simp [hk])
    rw [join_cons_cons, List.append_assoc, replaceAux_line _ _ _ _ hl, List.map_cons,
      join_cons_cons, List.append_assoc]
    congr 1
    simp only [List.singleton_append, replaceAux]
    have hpre : (('\n' :: w).isPrefixOf ('\n' :: join ['\n'] (m :: ms)) = true) ↔ w <+: m := by
      rw [List.isPrefixOf_iff_prefix, List.cons_prefix_cons]
      simp only [true_and]
      cases ms with
      | nil => simp [join]
      | cons k ks =>
        constructor
        · intro h
          rw [join_cons_cons] at h
          exact prefix_of_prefix_append hw (by simpa using h)
        · intro h
          rw [join_cons_cons, List.append_assoc]
          exact h.trans (List.prefix_append _ _)
    by_cases hp : w <+: m
    · rw [if_pos (hpre.2 hp)]
      simp only [List.cons.injEq, true_and, List.length_cons,
        Nat.add_sub_cancel]
      rw [replaceAux_skip]
      have hd : (join ['\n'] (m :: ms)).drop w.length = join ['\n'] (m.drop w.length :: ms) := by
        obtain ⟨t, rfl⟩ := hp
        cases ms with
        | nil => simp [join]
        | cons k ks => simp [join]
      rw [hd, ih _ (fun h => hm (List.mem_of_mem_drop h)) hms]
      simp [unshift, hp]
    · rw [if_neg (fun h => hp (hpre.1 h))]
      simp only [List.cons.injEq, true_and]
      rw [ih m hm hms]
      simp [unshift, hp]

theorem lines_delIndentBy (text w : Str) (hw : '\n' ∉ w) :
    lines (delIndentBy text w) = (lines text).map (unshift w) := by
  have hne := lines_ne_nil text
  have hm : ∀ l ∈ lines text, '\n' ∉ l := fun l hl => not_mem_lines hl
  cases hl : lines text with
  | nil => exact absurd hl hne
  | cons l ls =>
    rw [hl] at hm
    have ht : text = join ['\n'] (l :: ls) := by rw [← hl]; exact (join_split '\n' text).symm
    have hl0 := hm l (by simp)
    have hls : ∀ k ∈ ls, '\n' ∉ k := fun k hk => hm k (by simp [hk])
    have hfirst : (if startsWith text w then text.drop w.length else text) =
        join ['\n'] (unshift w l :: ls) := by
      have hpre : (startsWith text w = true) ↔ w <+: l := by
        rw [startsWith, List.isPrefixOf_iff_prefix, ht]
        cases ls with
        | nil => simp [join]
        | cons k ks =>
          constructor
          · intro h
            rw [join_cons_cons] at h
            exact prefix_of_prefix_append hw (by simpa using h)
          · intro h
            rw [join_cons_cons, List.append_assoc]
            exact h.trans (List.prefix_append _ _)
      by_cases hp : w <+: l
      · rw [if_pos (hpre.2 hp), ht]
        obtain ⟨t, rfl⟩ := hp
        cases ls with
        | nil => simp [join, unshift]
        | cons k ks => simp [join, unshift]
      · rw [if_neg (fun h => hp (hpre.1 h)), ht]
        simp [unshift, hp]
    have hu : ∀ k, '\n' ∉ k → '\n' ∉ unshift w k := by
      intro k hk
      unfold unshift; split
      · exact fun h => hk (List.mem_of_mem_drop h)
      · exact hk
    apply lines_unique _ _ (by simp)
    · intro k hk
      obtain ⟨j, hj, rfl⟩ := List.mem_map.1 hk
      exact hu j (hm j hj)
    · unfold delIndentBy
      simp only [hfirst]
      rw [replace_join w hw _ (hu l hl0) ls hls]
      simp

/-! ### Detection of indentation -/

/-- What the column loop computes, for lines that all contain a non-whitespace character. -/
theorem indentColumns_spec : ∀ (n : Nat) (l : Str) (ls : List Str), l.length ≤ n →
    (∀ m ∈ l :: ls, NonBlank m) →
    ∃ i, indentColumns (l :: ls) = (i, true) ∧ i ≤ l.length ∧
      (∀ c ∈ l.take i, isSpace c = true) ∧ (∀ m ∈ l :: ls, l.take i <+: m) ∧
      (∀ w, (∀ c ∈ w, isSpace c = true) → (∀ m ∈ l :: ls, w <+: m) → w.length ≤ i) := by
  intro n
  induction n with
  | zero =>
    intro l ls hl h
    have : l = [] := List.length_eq_zero_iff.1 (by omega)
    subst this
    obtain ⟨c, hc, _⟩ := h [] (by simp)
    simp at hc
  | succ n ih =>
    intro l ls hl h
    cases l with
    | nil => obtain ⟨c, hc, _⟩ := h [] (by simp); simp at hc
    | cons c l =>
      have hne : ∀ m ∈ ls, m ≠ [] := by
        rintro m hm rfl
        obtain ⟨d, hd, _⟩ := h [] (by simp [hm]); simp at hd
      have hany : ls.any (·.isEmpty) = false := by
        rw [List.any_eq_false]
        intro m hm; have := hne m hm; cases m <;> simp_all
      rw [indentColumns, indentColumnsAux]
      simp only [hany, Bool.false_eq_true, if_false]
      by_cases hcond : (!isSpace c || ls.any fun m => m.head? != some c) = true
      · rw [if_pos hcond]
        refine ⟨0, rfl, by simp, by simp, by simp, ?_⟩
        intro w hw1 hw2
        cases w with
        | nil => simp
        | cons d w =>
          exfalso
          have h1 := hw2 (c :: l) (by simp)
          rw [List.cons_prefix_cons] at h1
          obtain ⟨rfl, _⟩ := h1
          have hsp := hw1 d (by simp)
          rw [hsp] at hcond
          simp only [Bool.not_true, Bool.false_or, List.any_eq_true] at hcond
          obtain ⟨m, hm, hd⟩ := hcond
          have h2 := hw2 m (by simp [hm])
          obtain ⟨t, rfl⟩ := h2
          simp at hd
      · rw [if_neg hcond]
        simp only [Bool.or_eq_true, Bool.not_eq_true', not_or, Bool.not_eq_false,
          List.any_eq_true, not_exists, not_and] at hcond
        obtain ⟨hsp, hhead⟩ := hcond
        have hform : ∀ m ∈ ls, m = c :: m.tail := by
          intro m hm
          have h1 := hhead m hm
          have h2 := hne m hm
          cases m with
          | nil => exact absurd rfl h2
          | cons d m => simp at h1; simp [h1]
        have hnb : ∀ m ∈ l :: ls.map List.tail, NonBlank m := by
          intro m hm
          have hm' : c :: m ∈ (c :: l) :: ls := by
            rcases List.mem_cons.1 hm with rfl | hm
            · simp
            · obtain ⟨k, hk, rfl⟩ := List.mem_map.1 hm
              rw [← hform k hk]; simp [hk]
          obtain ⟨d, hd, hds⟩ := h _ hm'
          rcases List.mem_cons.1 hd with rfl | hd
          · rw [hsp] at hds; cases hds
          · exact ⟨d, hd, hds⟩
        obtain ⟨i, e1, e2, e3, e4, e5⟩ := ih l (ls.map List.tail) (by simpa using hl) hnb
        refine ⟨i + 1, by rw [indentColumns] at e1; rw [e1], by simpa using e2, ?_, ?_, ?_⟩
        · intro d hd
          simp only [List.take_succ_cons, List.mem_cons] at hd
          rcases hd with rfl | hd
          · exact hsp
          · exact e3 d hd
        · intro m hm
          rcases List.mem_cons.1 hm with rfl | hm
          · exact List.take_prefix _ _
          · have := e4 m.tail (by simp; exact Or.inr ⟨m, hm, rfl⟩)
            rw [hform m hm]
            simpa [List.take_succ_cons, List.cons_prefix_cons] using this
        · intro w hw1 hw2
          cases w with
          | nil => simp
          | cons d w =>
            have h1 := hw2 (c :: l) (by simp)
            rw [List.cons_prefix_cons] at h1
            obtain ⟨rfl, hw⟩ := h1
            have := e5 w (fun x hx => hw1 x (by simp [hx])) (by
              intro m hm
              rcases List.mem_cons.1 hm with rfl | hm
              · exact hw
              · obtain ⟨k, hk, rfl⟩ := List.mem_map.1 hm
                have h2 := hw2 k (by simp [hk])
                rw [hform k hk, List.cons_prefix_cons] at h2
                exact h2.2)
            simpa using this

theorem dropWhile_append_of_all {p : Char → Bool} {a b : Str} (h : ∀ c ∈ a, p c = true) :
    (a ++ b).dropWhile p = b.dropWhile p := by
  induction a with
  | nil => rfl
  | cons c a ih => simp [h c (by simp), ih (fun d hd => h d (by simp [hd]))]

/-- `rstrip` removes a whitespace suffix. -/
theorem rstrip_append (l : Str) : ∃ t, l = rstrip l ++ t ∧ ∀ c ∈ t, isSpace c = true := by
  refine ⟨(l.reverse.takeWhile isSpace).reverse, ?_, ?_⟩
  · unfold rstrip
    rw [← List.reverse_append, List.takeWhile_append_dropWhile, List.reverse_reverse]
  · intro c hc
    simp only [List.mem_reverse] at hc
    generalize l.reverse = r at hc
    induction r with
    | nil => simp at hc
    | cons d s ih =>
      simp only [List.takeWhile_cons] at hc
      split at hc
      · rcases List.mem_cons.1 hc with rfl | hc
        · assumption
        · exact ih hc
      · simp at hc

theorem dropWhile_eq_nil_iff' {p : Char → Bool} {s : Str} :
    s.dropWhile p = [] ↔ ∀ c ∈ s, p c = true := by
  induction s with
  | nil => simp
  | cons c s ih =>
    by_cases h : p c = true
    · simp [h, ih]
    · simp [h]

theorem rstrip_eq_nil_iff {l : Str} : rstrip l = [] ↔ ¬ NonBlank l := by
  unfold rstrip NonBlank
  rw [List.reverse_eq_nil_iff, dropWhile_eq_nil_iff']
  simp

theorem nonBlank_rstrip {l : Str} : NonBlank (rstrip l) ↔ NonBlank l := by
  obtain ⟨t, h1, h2⟩ := rstrip_append l
  constructor
  · rintro ⟨c, hc, hs⟩
    exact ⟨c, by rw [h1]; simp [hc], hs⟩
  · rintro ⟨c, hc, hs⟩
    rw [h1] at hc
    rcases List.mem_append.1 hc with hc | hc
    · exact ⟨c, hc, hs⟩
    · rw [h2 c hc] at hs; cases hs

/-- Whitespace prefixes of a non-blank line and of its right-stripped form are the same. -/
theorem space_prefix_rstrip {w l : Str} (hw : ∀ c ∈ w, isSpace c = true) (hl : NonBlank l) :
    w <+: rstrip l ↔ w <+: l := by
  obtain ⟨t, h1, h2⟩ := rstrip_append l
  have hnb := nonBlank_rstrip.2 hl
  generalize hr : rstrip l = r at h1 hnb ⊢
  subst h1
  clear hr hl
  constructor
  · intro h; exact h.trans (List.prefix_append _ _)
  · intro h
    induction w generalizing r with
    | nil => simp
    | cons c w ih =>
      cases r with
      | nil => obtain ⟨d, hd, _⟩ := hnb; simp at hd
      | cons d r =>
        simp only [List.cons_append, List.cons_prefix_cons] at h ⊢
        refine ⟨h.1, ih (fun x hx => hw x (by simp [hx])) r ?_ h.2⟩
        obtain ⟨x, hx, hs⟩ := hnb
        rcases List.mem_cons.1 hx with rfl | hx
        · have := hw c (by simp); rw [h.1, hs] at this; cases this
        · exact ⟨x, hx, hs⟩

theorem getIndent_spec (text : Str) :
    CommonIndent text (getIndent text) ∧
    ((∃ l ∈ lines text, NonBlank l) →
      ∀ w, CommonIndent text w → w.length ≤ (getIndent text).length) ∧
    ((∀ l ∈ lines text, ¬ NonBlank l) → getIndent text = []) := by
  unfold getIndent
  simp only
  have hfil : ∀ m, m ∈ ((split '\n' text).map rstrip).filter (fun l => !l.isEmpty) ↔
      ∃ l ∈ lines text, NonBlank l ∧ m = rstrip l := by
    intro m
    simp only [List.mem_filter, List.mem_map, lines]
    constructor
    · rintro ⟨⟨l, hl, rfl⟩, h⟩
      refine ⟨l, hl, ?_, rfl⟩
      by_contra hn
      rw [rstrip_eq_nil_iff.2 hn] at h; simp at h
    · rintro ⟨l, hl, hn, rfl⟩
      refine ⟨⟨l, hl, rfl⟩, ?_⟩
      have : rstrip l ≠ [] := fun e => (rstrip_eq_nil_iff.1 e) hn
      cases h : rstrip l <;> simp_all
  generalize ((split '\n' text).map rstrip).filter (fun l => !l.isEmpty) = ls at hfil
  cases ls with
  | nil =>
    have hnone : ∀ l ∈ lines text, ¬ NonBlank l := by
      intro l hl hn
      have := (hfil (rstrip l)).2 ⟨l, hl, hn, rfl⟩
      simp at this
    refine ⟨⟨by simp, fun l hl hn => absurd hn (hnone l hl)⟩, ?_, fun _ => rfl⟩
    rintro ⟨l, hl, hn⟩
    exact absurd hn (hnone l hl)
  | cons l0 rest =>
    have hnb : ∀ m ∈ l0 :: rest, NonBlank m := by
      intro m hm
      obtain ⟨l, _, hn, rfl⟩ := (hfil m).1 hm
      exact nonBlank_rstrip.2 hn
    obtain ⟨i, e1, e2, e3, e4, e5⟩ := indentColumns_spec l0.length l0 rest (Nat.le_refl _) hnb
    simp only [e1]
    have hlen : (l0.take i).length = i := by simp; omega
    refine ⟨⟨e3, ?_⟩, ?_, ?_⟩
    · intro l hl hn
      exact (space_prefix_rstrip e3 hn).1 (e4 _ ((hfil _).2 ⟨l, hl, hn, rfl⟩))
    · rintro _ w ⟨hw1, hw2⟩
      rw [hlen]
      refine e5 w hw1 ?_
      intro m hm
      obtain ⟨l, hl, hn, rfl⟩ := (hfil m).1 hm
      exact (space_prefix_rstrip hw1 hn).2 (hw2 l hl hn)
    · intro h
      obtain ⟨l, hl, hn, _⟩ := (hfil l0).1 (by simp)
      exact absurd hn (h l hl)

theorem getIndent_no_newline (text : Str) : '\n' ∉ getIndent text := by
  obtain ⟨⟨_, h2⟩, _, h4⟩ := getIndent_spec text
  by_cases h : ∃ l ∈ lines text, NonBlank l
  · obtain ⟨l, hl, hn⟩ := h
    intro hm
    exact not_mem_lines hl ((h2 l hl hn).subset hm)
  · rw [h4 (fun l hl hn => h ⟨l, hl, hn⟩)]; simp

end Verif
