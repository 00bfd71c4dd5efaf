import Verif.Lemmas.Texts

/-! Comments, columns, blocks of text. -/

set_option linter.unusedSectionVars false

namespace Verif
open Py Spec

/-! Columns -/

/-- The rest `s` of the text is at the position `k`. -/
def At (full : Str) (k : Nat) (s : Str) : Prop := ∃ pre, full = pre ++ s ∧ k = pre.length

/-- The rest `s` of the text is at the position `k` and the column `c`. -/
def Col (full : Str) (k : Nat) (s : Str) (c : Nat) : Prop :=
  ∃ pre line, full = pre ++ ('\n' :: (line ++ s)) ∧ k = pre.length + 1 + line.length ∧ '\n' ∉ line ∧ c = line.length + 1

theorem At.zero {full : Str} : At full 0 full := ⟨[], rfl, rfl⟩

theorem At.move {full x s : Str} {k : Nat} (h : At full k (x ++ s)) : At full (k + x.length) s := by
  obtain ⟨pre, rfl, rfl⟩ := h
  exact ⟨pre ++ x, by simp, by simp⟩

theorem Col.at {full s : Str} {k c : Nat} (h : Col full k s c) : At full k s := by
  obtain ⟨pre, line, rfl, rfl, _, _⟩ := h
  exact ⟨pre ++ '\n' :: line, by simp, by simp; omega⟩

theorem Col.move {full x s : Str} {k c : Nat} (h : Col full k (x ++ s) c) (hx : '\n' ∉ x) :
    Col full (k + x.length) s (c + x.length) := by
  obtain ⟨pre, line, rfl, rfl, hl, rfl⟩ := h
  exact ⟨pre, line ++ x, by simp, by simp; omega, by simp [hl, hx], by simp; omega⟩

theorem At.line {full s : Str} {k m : Nat} (h : At full k ('\n' :: (List.replicate m '\n' ++ s))) :
    Col full (k + 1 + m) s 1 := by
  obtain ⟨pre, rfl, rfl⟩ := h
  refine ⟨pre ++ List.replicate m '\n', [], ?_, by simp; omega, by simp, rfl⟩
  have : ('\n' :: List.replicate m '\n' : Str) = List.replicate m '\n' ++ ['\n'] := by
    rw [← List.replicate_succ, List.replicate_succ']
  have h2 : ('\n' :: (List.replicate m '\n' ++ s)) = ('\n' :: List.replicate m '\n') ++ s := rfl
  rw [h2, this]
  simp

theorem Col.column {full s : Str} {k c : Nat} (h : Col full k s c) : columnAt full k = c := by
  obtain ⟨pre, line, rfl, rfl, hl, rfl⟩ := h
  have h1 : (pre ++ '\n' :: (line ++ s)).take (pre.length + 1 + line.length) = pre ++ '\n' :: line := by
    have : pre.length + 1 + line.length = (pre ++ '\n' :: line).length := by simp; omega
    rw [this]
    have h2 : pre ++ '\n' :: (line ++ s) = (pre ++ '\n' :: line) ++ s := by simp
    rw [h2]
    exact List.take_left
  rw [columnAt, h1]
  have h3 : (pre ++ '\n' :: line).reverse = line.reverse ++ '\n' :: pre.reverse := by simp
  rw [h3, List.takeWhile_append_of_pos]
  · simp
  · intro a ha
    simp only [List.mem_reverse] at ha
    simp only [bne_iff_ne, ne_eq]
    rintro rfl
    exact hl ha

section
variable {M : Marks} {U : Uni} {P : Type} {names : Str → Option Char} {full : Str} {k : Nat}

local notation "Bd" => Builds M U P names full
local notation "Bq" => BuildsSeq M U P names full
local notation "Bs" => BuildsStar M U P names full
local notation "Bm" => Many M U P names full
local notation "Fl" => Fails (rule M U)
local notation "Fq" => FailsSeq (rule M U)

/-! Comments -/

theorem hash_stops : ∀ n ≤ 15, stopsAt M U n '#' = true := by
  intro n hn
  match n, hn with
  | 0, _ | 1, _ | 2, _ | 3, _ | 4, _ | 5, _ | 6, _ | 7, _ | 8, _ | 9, _ | 10, _ | 11, _ | 12, _ | 13, _ | 14, _ | 15, _ => rfl

theorem After.hash {w s : Str} (hw : Blanks w) : After M U 15 (w ++ '#' :: s) := by
  refine .sym hw rfl ?_ ?_
  · intro _; rfl
  · intro n hn; exact .inl (hash_stops n hn)

theorem no_term_dash {s : Str} : Fl (.ref .term) ('-' :: s) := .first 200 rfl

theorem no_pipeline_dashes {s : Str} : Fl (.ref .pipeline) ('-' :: '-' :: s) := by
  have h : Fl (.ref .arith_expr) ('-' :: '-' :: s) := by
    refine .ref (.seq (.after (x := ['-']) (rest := '-' :: s) ?_ (.after (x := []) (rest := '-' :: s) ?_ (.head no_term_dash))))
    · exact (Builds.opt_some (P := Unit) (names := fun _ => none) (full := []) (k := 0)
        (Builds.plain (n := .neg) (bs := []) (.lit _ _) rfl)).eats
    · exact .ws .nil (.cons rfl)
  exact .ref (.seq1 (.ref (.seq1 (.ref (.seq1 (.ref (.seq1 (.ref (.seq1 h)))))))))

theorem After.dashes {w s : Str} (hw : Blanks w) : After M U 15 (w ++ '-' :: '-' :: s) := by
  refine .sym hw rfl (fun _ => rfl) ?_
  intro n hn
  by_cases h4 : n = 4
  · subst h4
    right
    intro x hx
    simp only [conts, List.mem_singleton] at hx
    subst hx
    refine .after (x := ['-']) (rest := '-' :: s) ?_ (.after (x := []) (rest := '-' :: s) (.ws .nil (.cons rfl)) (.head no_term_dash))
    exact (Builds.plain (P := Unit) (names := fun _ => none) (full := []) (k := 0) (n := .op_additive) (bs := [])
      (.alt (.there (.first 200 rfl) (.here (.lit _ _)))) rfl).eats
  · by_cases h10 : n = 10
    · subst h10
      right
      intro x hx
      simp only [conts, List.mem_singleton] at hx
      subst hx
      exact .head no_pipeline_dashes
    · left
      match n, hn, h4, h10 with
      | 0, _, _, _ | 1, _, _, _ | 2, _, _, _ | 3, _, _, _ | 5, _, _, _ | 6, _, _, _ | 7, _, _, _ | 8, _, _, _ | 9, _, _, _
      | 11, _, _, _ | 12, _, _, _ | 13, _, _, _ | 14, _, _, _ | 15, _, _, _ => rfl

theorem eats_verbatim {s rest : Str} (hs : ∀ c ∈ s, TextChar M c) (hr : Eol M rest) :
    Eats M U (.opt (.ref .verbatim)) s rest := by
  by_cases hne : s = []
  · subst hne
    refine .opt_none (.ref (.rx (RE.match?_seq_none ?_)))
    cases rest with
    | nil => rfl
    | cons c s => simp [RE.match?, RE.rests, (hr c rfl).notLine]
  · exact (Builds.opt_some (builds_verbatim (U := U) (P := Unit) (names := fun _ => none) (full := []) (k := 0) hne hs hr)).eats

/-- What makes a comment after `w`. -/
theorem builds_comment {w mk s rest : Str} (hw : Blanks w) (hm : mk = ['#'] ∨ mk = ['-', '-']) (hs : ∀ c ∈ s, TextChar M c)
    (hr : Eol M rest) : Bd k (.ref .inline_comment) (w ++ (mk ++ s)) rest [] := by
  have h : Bd k (rule M U .inline_comment) (w ++ (mk ++ s)) rest [] := by
    have hv : Bd (k + w.length + mk.length) (.opt (.ref .verbatim)) s rest [] := by
      by_cases hne : s = []
      · subst hne
        obtain ⟨t, ht⟩ := eats_verbatim (U := U) hs hr
        refine .opt_none (.ref (.rx (RE.match?_seq_none ?_)))
        cases rest with
        | nil => rfl
        | cons c s => simp [RE.match?, RE.rests, (hr c rfl).notLine]
      · exact .opt_some (builds_verbatim hne hs hr)
    refine .ofSeq (.step (.ws hw (rest := mk ++ (s ++ rest)) ?_) (.step (r := s ++ rest) (.ignored (n := .mark_comment) rfl (.rx ?_))
      (.step hv (.nil _))))
    · rcases hm with rfl | rfl <;> exact .cons rfl
    · rcases hm with rfl | rfl
      · refine (alts_skip ?_).trans (RE.match?_word ['#'] _)
        exact RE.match?_word_none rfl
      · exact alts_take (RE.match?_word ['-', '-'] _)
  obtain ⟨t, ht, _⟩ := h
  exact .ignored rfl ht

variable [hM : MarksApart M U]

theorem Eol.no_comment {rest : Str} (h : Eol M rest) : Fl (.ref .inline_comment) rest := by
  refine .ref (.seq2 (x := []) (.ws .nil (h.noBlank U)) (.ref (.rx ?_)))
  cases rest with
  | nil => rfl
  | cons c s =>
    have h1 := (h c rfl).ne U (a := '-')
    have h2 := (h c rfl).ne U (a := '#')
    refine (alts_skip (RE.match?_word_none ?_)).trans (RE.match?_word_none ?_)
    · simp [List.isPrefixOf, Ne.symm h1]
    · simp [List.isPrefixOf, Ne.symm h2]

theorem remark_builds {r rest : Str} (h : Remark M r) (hr : Eol M rest) : Bd k (.opt (.ref .inline_comment)) r rest [] := by
  cases h with
  | none => exact .opt_none hr.no_comment
  | hash hw hs => exact (Builds.opt_some (builds_comment hw (mk := ['#']) (.inl rfl) hs hr)).conv
  | dashes hw hs => exact (Builds.opt_some (builds_comment hw (mk := ['-', '-']) (.inr rfl) hs hr)).conv

theorem remark_after {r rest : Str} (h : Remark M r) (hr : Eol M rest) : After M U 15 (r ++ rest) := by
  cases h with
  | none => exact hr.after
  | @hash w s hw hs =>
    have : w ++ '#' :: s ++ rest = w ++ '#' :: (s ++ rest) := by simp
    rw [this]; exact .hash hw
  | @dashes w s hw hs =>
    have : w ++ '-' :: '-' :: s ++ rest = w ++ '-' :: '-' :: (s ++ rest) := by simp
    rw [this]; exact .dashes hw

/-! Text blocks -/

theorem reads_tail {kd : TextKind} {is : List Item} {xs : List TextItem} {rest : Str} (h : TextTail M names kd is xs)
    (hr : Shut M rest) : Bd k (.opt (.ref (tailNT kd))) (itemsFlat M is) rest (xs.map itemB) := by
  cases h with
  | none => exact .opt_none (no_tail (tailNT_rule kd) hr)
  | @group inc js ys hb hn hj h =>
    refine .opt_some ?_
    rw [itemsFlat, itemsFlat, List.append_nil, flat_group]
    refine (builds_group (tailNT_rule kd) (by cases kd <;> rfl) closed_tail hb hn
        (bs := ys.map itemB) (x := itemsFlat M js) (fun rest hr => ?_)).conv rfl ?_
    · refine .reduced (by cases kd <;> rfl) ?_
      rw [coreNT_rule]
      exact (reads_items h hr).plus (items_ne h hj)
    · simp only [bracket, List.map_append, List.map_map, List.append_assoc]; rfl

theorem tail_eol {kd : TextKind} {is : List Item} {xs : List TextItem} {rest : Str} (h : TextTail M names kd is xs)
    (hr : Eol M rest) : Eol M (itemsFlat M is ++ rest) := by
  cases h with
  | none => exact hr
  | @group inc js ys hb hn hj h =>
    refine itemsFlat_eol ?_ hr
    intro inc' js' h
    simp only [List.mem_singleton, Item.group.injEq] at h
    rw [h.1]; exact hn

theorem reads_block {kd : TextKind} {t rest : Str} {ls : List Line} {is : List Item} {xs : List TextItem} {c : Nat}
    (h1 : FirstLine M names kd t ls) (h2 : TextTail M names kd is xs) (hr : Shut M rest) (hc : columnAt full k = c) :
    Bd k (.ref .body_text) (kd.mark :: (t ++ itemsFlat M is)) rest [.stmt (.text c (ls.map .line ++ xs))] := by
  have key : ∀ mk, isIgnored mk = true → rule M U mk = .lit [kd.mark] → rule M U (blockNT kd) = .seq [.ref mk, .opt (.ref (lineNT kd)), .opt (.ref (tailNT kd))] →
      Bd k (.ref (blockNT kd)) (kd.mark :: (t ++ itemsFlat M is)) rest [.stmt (.text c (ls.map .line ++ xs))] := by
    intro mk hi hmk hrule
    have hb : Bd k (rule M U (blockNT kd)) (kd.mark :: (t ++ itemsFlat M is)) rest ((ls.map TextItem.line ++ xs).map itemB) := by
      rw [hrule]
      refine .ofSeq (.step (x := [kd.mark]) (r := t ++ (itemsFlat M is ++ rest)) (.ignored hi (by rw [hmk]; exact .lit _ _))
        (.step (reads_first h1 (tail_eol h2 hr.eol)) (.step (reads_tail h2 hr) (.nil _)))) ?_ ?_
      · simp
      · simp only [List.map_append, List.map_map, List.append_nil, List.nil_append]; rfl
    have hs : setup (P := P) names full (blockNT kd) k (kd.mark :: (t ++ itemsFlat M is)) (attachQuals ((ls.map TextItem.line ++ xs).map itemB)) =
        .ok (.stmt (.text c (ls.map .line ++ xs))) := by
      rw [attachQuals_id (itemB_noQual _)]
      have := asItems_itemB (P := P) (ls.map .line ++ xs)
      cases kd <;> simp only [setup, blockNT, this, hc] <;> rfl
    cases kd <;> exact .plain hb hs
  refine .reduced rfl (.alt ?_)
  cases kd with
  | verbat => exact .here (key .mark_verbat rfl rfl rfl)
  | normal => exact .there (.first 200 rfl) (.here (key .mark_normal rfl rfl rfl))
  | markup => exact .there (.first 200 rfl) (.there (.first 200 rfl) (.here (key .mark_markup rfl rfl rfl)))

theorem reads_comment {mk t rest : Str} {is : List Item} {xs : List TextItem} (hm : mk = ['#'] ∨ mk = ['-', '-'])
    (ht : ∀ c ∈ t, TextChar M c) (h : TextTail M names .verbat is xs) (hr : Shut M rest) :
    Bd k (.ref .block_comment) (mk ++ (t ++ itemsFlat M is)) rest [.stmt .comment] := by
  have h1 : ∃ ls, FirstLine M names .verbat t ls := by
    by_cases hne : t = []
    · subst hne; exact ⟨_, .none⟩
    · exact ⟨_, .some (.verbat hne ht)⟩
  obtain ⟨ls, h1⟩ := h1
  refine .plain (bs := (ls.map TextItem.line ++ xs).map itemB) ?_ rfl
  refine .ofSeq (.step (x := mk) (.ignored (n := .mark_comment) rfl (.rx ?_))
        (.step (reads_first h1 (tail_eol h hr.eol)) (.step (reads_tail h hr) (.nil _)))) ?_ ?_
  · rcases hm with rfl | rfl
    · refine (alts_skip ?_).trans (RE.match?_word ['#'] _)
      exact RE.match?_word_none rfl
    · exact alts_take (RE.match?_word ['-', '-'] _)
  · simp
  · simp only [List.map_append, List.map_map, List.append_nil, List.nil_append]; rfl

theorem reads_embed {w t r rest : Str} {e : Expr} (hw : Blanks w) (h : Written M names 15 t e) (hr : Remark M r)
    (he : Eol M rest) : Bd k (.ref .body_text) ('@' :: (w ++ (t ++ r))) rest [.stmt (.embed (.root none e))] := by
  refine .reduced rfl (.alt (.there (.first 200 rfl) (.there (.first 200 rfl) (.there (.first 200 rfl) (.here ?_)))))
  refine .plain (bs := [bx (.root none e)]) ?_ (by rw [attachQuals_one]; rfl)
  exact .ofSeq (.step (x := ['@']) (.ignored (n := .mark_embed) rfl (.lit _ _)) (.step (r := t ++ (r ++ rest)) (.ws hw (written_noBlank h))
    (.step (builds_expr (reads15 (by omega) h (written_reads M U P names full h) _ _ (remark_after hr he)))
      (.step (remark_builds hr he) (.nil _)))))

theorem textBlock_reads {c : Nat} {t rest : Str} {is : List Item} {s : Stmt P} (h : TextBlock M names c t is s)
    (hr : Shut M rest) (hc : columnAt full k = c) : Bd k (.ref .body_text) (t ++ itemsFlat M is) rest [.stmt s] := by
  cases h with
  | text h1 h2 => exact reads_block h1 h2 hr hc
  | embed hw h hm => exact (reads_embed hw h hm hr.eol).conv (by simp [itemsFlat])

end
end Verif
