import Verif.Lemmas.Bodies

/-! Control blocks: bodies, conditions, clauses. -/

set_option linter.unusedSectionVars false

namespace Verif
open Py Spec

section
variable {M : Marks} {U : Uni} {P : Type} {names : Str → Option Char} {full : Str} {k : Nat}

local notation "Bd" => Builds M U P names full
local notation "Bq" => BuildsSeq M U P names full
local notation "Bs" => BuildsStar M U P names full
local notation "Bm" => Many M U P names full
local notation "Fl" => Fails (rule M U)
local notation "Fq" => FailsSeq (rule M U)

variable [hM : MarksApart M U]

/-! Bodies -/

theorem builds_control {t rest : Str} {ss : List (Stmt P)} (h : Bd k (rule M U .body_control) t rest (ss.map stmtB)) :
    Bd k (.ref .body_control) t rest [.stmt (.body ss)] := by
  refine .plain h ?_
  rw [attachQuals_id (stmtB_noQual _)]
  simp only [setup, asStmts_stmtB]; rfl

theorem control_colon {c : Nat} {w r : Str} {is : List Item} {ss : List (Stmt P)} (hw : Blanks w) (hm : Remark M r)
    (h : ReadsNested M U P names full (k + w.length + 1 + r.length) is ss) :
    ReadsBody M U P names full .body_control k c (w ++ (':' :: r)) is (.body ss) := by
  intro _ hok rest hr hc
  have hat : At full (k + w.length + 1 + r.length) (itemsFlat M is ++ rest) := by
    have : At full k ((w ++ ':' :: r) ++ (itemsFlat M is ++ rest)) := hc.at
    have := this.move
    simpa [Nat.add_assoc, Nat.add_comm, Nat.add_left_comm] using this
  obtain ⟨he, h1, _⟩ := h hok rest hr hat
  refine builds_control (.alt (.here ?_))
  exact .ofSeq (.step (r := ':' :: (r ++ (itemsFlat M is ++ rest))) (.ws hw (.cons rfl)) (.step (x := [':']) (r := r ++ (itemsFlat M is ++ rest)) (.ignored (n := .mark_struct) rfl (.lit _ _))
    (.step (remark_builds hm he) (.step h1.at (.nil _)))))

theorem control_plain {c : Nat} {r : Str} {is : List Item} {ss : List (Stmt P)} (hm : Remark M r)
    (h : ReadsNested M U P names full (k + r.length) is ss) (hne : is ≠ []) :
    ReadsBody M U P names full .body_control k c r is (.body ss) := by
  intro _ hok rest hr hc
  obtain ⟨he, _, h1⟩ := h hok rest hr hc.at.move
  obtain ⟨w, s, hs, hw, hb, hc⟩ := remark_split U hm he
  refine builds_control (.alt (.there ?_ (.here (.ofSeq (.step (remark_builds hm he) (.step (h1 hne) (.nil _)))))))
  have := no_colon (U := U) (M := M) (ps := [.opt (.ref .inline_comment), .opt (.ref .tail_blocks)]) hw hb (remark_avoids U hc)
  rw [← hs] at this
  simpa using this

/-- The statement of reading a body of a control block, and what is not read as a text. -/
def ReadsControl (M : Marks) (U : Uni) (P : Type) (names : Str → Option Char) (full : Str) (k : Nat) (t : Str)
    (is : List Item) (s : Stmt P) : Prop :=
  ∀ c, ReadsBody M U P names full .body_control k c t is s

/-- Whatever begins with a colon, a comment, or the end of the line, is not a text; a value may end before it. -/
theorem blockBody_start {t : Str} {is : List Item} {s : Stmt P} {rest : Str} (h : BlockBody M names k t is s) (hr : Eol M rest) :
    Fl (.seq [.ref .ws, .ref .body_text]) (t ++ (itemsFlat M is ++ rest)) ∧ ValueEnd M U (t ++ (itemsFlat M is ++ rest)) := by
  cases h with
  | @colon _ w r _ ss hw hm h =>
    have he := nested_eol h hr
    obtain ⟨w', v, h1, h2, h3, h4⟩ := remark_split U hm he
    have heq : w ++ ':' :: r ++ (itemsFlat M is ++ rest) = w ++ ':' :: (w' ++ v) := by rw [← h1]; simp
    rw [heq]
    have hat : Fl (.ref .atom) v := by
      cases v with
      | nil => exact .first 200 rfl
      | cons c v =>
        rcases h4 c rfl with h | rfl | rfl
        · exact no_atom (h.notName U).1 h.notDigit (Eol.avoids (rest := c :: v) U (fun d hd => by cases hd; exact h) (by decide) c rfl)
        · exact .first 200 rfl
        · exact .first 200 rfl
    refine ⟨no_text hw (.cons rfl) .cons, .mk' (.sym hw rfl (fun _ => rfl) ?_) hw (.cons rfl) (by simp)⟩
    intro n hn
    by_cases h9 : n = 9
    · subst h9
      right
      intro x hx
      simp only [conts, List.mem_singleton] at hx
      subst hx
      refine .after (x := [':']) (rest := w' ++ v) (Builds.lit (P := Unit) (names := fun _ => none) (full := []) (k := 0) [':'] _).eats
        (.after (.ws h2 h3) (.head (.ref (.seq1 (.ref (.seq1 hat))))))
    · left
      match n, hn, h9 with
      | 0, _, _ | 1, _, _ | 2, _, _ | 3, _, _ | 4, _, _ | 5, _, _ | 6, _, _ | 7, _, _ | 8, _, _ | 10, _, _
      | 11, _, _ | 12, _, _ | 13, _, _ | 14, _, _ | 15, _, _ => rfl
  | plain hm h hne =>
    have he := nested_eol h hr
    obtain ⟨w, s, hs, hw, hb, hc⟩ := remark_split U hm he
    refine ⟨?_, remark_stop hm he⟩
    rw [hs]
    exact no_text hw hb (remark_avoids U hc)

theorem generic_body {c : Nat} {t : Str} {is : List Item} {s : Stmt P} (hb : BlockBody M names k t is s) (h : ReadsControl M U P names full k t is s) :
    ReadsBody M U P names full .generic_control k c t is s := by
  intro hnl hok rest hr hc
  refine .reduced rfl (.alt (.there ?_ (.here (h c hnl hok rest hr hc))))
  have := (blockBody_start (U := U) hb hr.eol).1
  simpa using this

theorem no_control {rest : Str} (hr : Shut M rest) : Fl (.ref .body_control) rest := by
  have h1 : Fl (.ref .tail_blocks) rest := no_tail (co := .core_blocks) rfl hr
  exact .ref (.alt (.cons (no_colon (w := []) .nil (hr.eol.noBlank U) (hr.eol.avoids U))
    (.cons (.seq2 (x := []) (.opt_none hr.eol.no_comment) h1) (.nil _))))

theorem no_generic {rest : Str} (hr : Shut M rest) : Fl (.ref .generic_control) rest :=
  .ref (.alt (.cons (no_text (w := []) .nil (hr.eol.noBlank U) (hr.eol.avoids U)) (.cons (no_control hr) (.nil _))))

/-! Conditions -/

theorem stops_one {c : Char} (h : c ≠ '(' ∧ c ≠ '[' ∧ c ≠ '.') {s : Str} : ∀ x ∈ conts 1, Fq x.2 (c :: s) := by
  intro x hx
  simp only [conts, List.mem_singleton] at hx
  subst hx
  exact .head (.ref (.alt (.cons (.ref (.seq1 (.lit1 h.1))) (.cons (.ref (.seq1 (.lit1 h.2.1))) (.cons (.ref (.seq1 (.lit1 h.2.2))) (.nil _))))))

theorem After.one {w s : Str} {c : Char} (hw : Blanks w) (hb : isBlank c = false) (he : w = [] → endChar U c = true)
    (h : c ≠ '(' ∧ c ≠ '[' ∧ c ≠ '.') : After M U 1 (w ++ c :: s) := by
  refine .sym hw hb he ?_
  intro n hn
  match n, hn with
  | 0, _ => exact .inl rfl
  | 1, _ => exact .inr (stops_one h)

theorem control_after {c : Nat} {t : Str} {is : List Item} {s : Stmt P} {rest : Str} (h : ControlBody M names k c t is s)
    (ht : t.head? ≠ some '!') (hr : Eol M rest) : After M U 1 (t ++ (itemsFlat M is ++ rest)) := by
  cases h with
  | @text _ _ w t _ _ hw h =>
    obtain ⟨d, u, rfl, hd⟩ := text_start h
    have heq : w ++ d :: u ++ (itemsFlat M is ++ rest) = w ++ d :: (u ++ (itemsFlat M is ++ rest)) := by simp
    rw [heq]
    simp only [List.elem_eq_mem, List.mem_cons, List.not_mem_nil, or_false, decide_eq_true_eq] at hd
    refine .one hw ?_ ?_ ?_
    · rcases hd with rfl | rfl | rfl | rfl <;> rfl
    · rintro rfl
      rcases hd with rfl | rfl | rfl | rfl
      · exact absurd rfl ht
      · rfl
      · rfl
      · rfl
    · rcases hd with rfl | rfl | rfl | rfl <;> decide
  | body h => exact (blockBody_start h hr).2.after.mono (by omega)

theorem reads_operand {t rest : Str} {e : Expr} (h : Written M names 1 t e) (hr : After M U 1 rest) :
    Bd k (.ref .expr_factor) t rest [bx (.root none e)] := by
  refine .plain (bs := [bx e]) (.ofSeq (.step (x := t) (r := rest) (bs := [bx e]) ?_ (.step (.lit _ _) (.nil _)))) (by rw [attachQuals_one]; rfl)
  exact written_reads M U P names full h k rest hr

/-- The first alternative is not taken. -/
theorem compound_fails {t : Str} {rest : Str} (h : Compound M names t) : Fl (.seq [.ref .expr_factor, .ref .generic_control]) (t ++ rest) := by
  cases h with
  | minus => exact .first 200 rfl
  | @not c t hc =>
    refine .seq1 (.ref (.seq1 (.ref (.seq1 ?_))))
    have hname : Fl (.ref .name_id) (s!!"not" ++ (c :: (t ++ rest))) := .name_reserved (c := c) (by decide) (by rcases hc with rfl | rfl <;> rfl) (.inl rfl)
    have : s!!"not" ++ c :: t ++ rest = s!!"not" ++ (c :: (t ++ rest)) := by simp
    rw [this]
    refine .ref (.alt (.cons (.first 200 rfl) (.cons (.ref (.seq (.after (x := []) (.opt_none (.first 200 rfl)) (.head hname)))) (.cons (.first 200 rfl) (.cons (.first 200 rfl)
      (.cons (.first 200 rfl) (.cons (.first 200 rfl) (.cons (.first 200 rfl) (.cons (.first 200 rfl) (.nil _)))))))))) 
  | @operator t w t' c e h hw h1 h2 h3 =>
    simp only [List.elem_eq_mem, List.mem_cons, List.not_mem_nil, or_false, decide_eq_false_iff_not, not_or] at h2
    obtain ⟨a1, a2, a3, a4, a5, a6, a7, a8, a9, a10, a11, a12⟩ := h2
    have hb : isBlank c = false := by simp [isBlank, a11, a12]
    have heq : t ++ (w ++ c :: t') ++ rest = t ++ (w ++ c :: (t' ++ rest)) := by simp
    rw [heq]
    have hav : Avoids (s!!"!|/@:#") (c :: (t' ++ rest)) := .cons (by simp [a1, a2, a3, a4, a5, a6])
    have hav1 : Avoids (s!!"!|/@") (c :: (t' ++ rest)) := .cons (by simp [a1, a2, a3, a4])
    have hav2 : Avoids (s!!":") (c :: (t' ++ rest)) := .cons (by simp [a5])
    have hav3 : Avoids (s!!"#") (c :: (t' ++ rest)) := .cons (by simp [a6])
    have hend : w = [] → endChar U c = true := by
      intro hw
      have := h1 hw
      simp only [List.elem_eq_mem, List.mem_cons, List.not_mem_nil, or_false, decide_eq_true_eq] at this
      rcases this with rfl | rfl | rfl | rfl | rfl | rfl | rfl | rfl | rfl <;> rfl
    have hda : ¬ s!!"--" <+: c :: (t' ++ rest) := by
      rintro ⟨u, hu⟩
      simp only [List.cons_append, List.nil_append, List.cons.injEq] at hu
      obtain ⟨hn, hh⟩ := h3 hu.1.symm
      cases t' with
      | nil => exact hn rfl
      | cons d u' => simp only [List.cons_append, List.cons.injEq] at hu; exact hh (by simp [← hu.2.1])
    refine .seq2 (rest := w ++ c :: (t' ++ rest)) (reads_operand (P := Unit) (full := []) (k := 0) h (.one hw hb hend ⟨a7, a8, a9⟩)).eats ?_
    refine .ref (.alt (.cons (no_text hw (.cons hb) hav1) (.cons (.ref (.alt (.cons (no_colon hw (.cons hb) hav2)
      (.cons (.seq2 (x := []) (.opt_none (no_inline hw (.cons hb) hav3 hda)) ?_) (.nil _))))) (.nil _))))
    have hm1 : isMark M M.indentS = true := by simp [isMark]
    have hm2 : isMark M M.indentT = true := by simp [isMark]
    have : ∀ d, (w ++ c :: (t' ++ rest)).head? = some d → d ≠ M.indentS ∧ d ≠ M.indentT := by
      intro d hd
      have hne : d.toNat < 0x2768 := by
        cases w with
        | nil =>
          cases hd
          have := h1 rfl
          simp only [List.elem_eq_mem, List.mem_cons, List.not_mem_nil, or_false, decide_eq_true_eq] at this
          rcases this with rfl | rfl | rfl | rfl | rfl | rfl | rfl | rfl | rfl <;> decide
        | cons a w => cases hd; rcases hw d (by simp) with rfl | rfl <;> decide
      have h1 := hM.high _ hm1
      have h2 := hM.high _ hm2
      constructor <;> (rintro rfl; omega)
    cases hs : w ++ c :: (t' ++ rest) with
    | nil => cases w <;> simp at hs
    | cons d s =>
      have := this d (by rw [hs]; rfl)
      exact .ref (.alt (.cons (.seq1 (.ref (.lit1 this.1))) (.cons (.seq1 (.ref (.lit1 this.2))) (.nil _))))

/-! Clauses -/

/-- The statement of reading a condition with its body. -/
def ReadsClause (M : Marks) (U : Uni) (P : Type) (names : Str → Option Char) (full : Str) (k c : Nat) (t : Str) (is : List Item)
    (e : Expr) (b : Option (Stmt P)) : Prop :=
  '\n' ∉ t → ItemsOk is → ∀ rest, Shut M rest → Col full k (t ++ (itemsFlat M is ++ rest)) c →
    Builds M U P names full k (.ref .clause_if) (t ++ itemsFlat M is) rest [.clause e b]

def clauseB (e : Expr) : Option (Stmt P) → List (Built P)
  | none => [bx (.root none e)]
  | some b => [bx (.root none e), .stmt b]

theorem builds_clause {w x rest : Str} {e : Expr} {b : Option (Stmt P)} (hw : Blanks w) (hne : w ≠ []) (hb : NoBlank (x ++ rest))
    (h : Bd (k + w.length) (rule M U .tail_if) x rest (clauseB e b)) : Bd k (.ref .clause_if) (w ++ x) rest [.clause (.root none e) b] := by
  refine .plain (bs := clauseB e b) (.ofSeq (.step (.space hw hne hb) (.step (.reduced rfl h) (.nil _)))) ?_
  cases b <;> rfl

theorem clause_factor {c : Nat} {w t t' : Str} {e : Expr} {is : List Item} {b : Stmt P} (hw : Blanks w) (hne : w ≠ [])
    (h : Written M names 1 t e) (ht : t'.head? ≠ some '!') (hc : ControlBody M names (k + w.length + t.length) (c + w.length + t.length) t' is b)
    (hb : ReadsBody M U P names full .generic_control (k + w.length + t.length) (c + w.length + t.length) t' is b) :
    ReadsClause M U P names full k c (w ++ (t ++ t')) is (.root none e) (some b) := by
  intro hnl hok rest hr hcol
  have h1 : '\n' ∉ w := fun h => hnl (by simp [h])
  have h2 : '\n' ∉ t := fun h => hnl (by simp [h])
  have h3 : '\n' ∉ t' := fun h => hnl (by simp [h])
  have heq : w ++ (t ++ t') ++ (itemsFlat M is ++ rest) = w ++ (t ++ (t' ++ (itemsFlat M is ++ rest))) := by simp
  rw [heq] at hcol
  have hB := hb h3 hok rest hr ((hcol.move h1).move h2)
  have ha := control_after (U := U) hc ht hr.eol
  have : w ++ (t ++ t') ++ itemsFlat M is = w ++ (t ++ (t' ++ itemsFlat M is)) := by simp
  rw [this]
  refine builds_clause hw hne (by simpa using written_noBlank h) (.alt (.here (.ofSeq (.step (reads_operand h (by simpa using ha)) (.step hB (.nil _))) (hb := by simp [clauseB]))))

theorem clause_compound {c : Nat} {w t t' : Str} {e : Expr} {is : List Item} {b : Stmt P} (hw : Blanks w) (hne : w ≠ [])
    (h : Written M names 15 t e) (ht : Compound M names t) (hc : BlockBody M names (k + w.length + t.length) t' is b)
    (hb : ReadsControl M U P names full (k + w.length + t.length) t' is b) :
    ReadsClause M U P names full k c (w ++ (t ++ t')) is (.root none e) (some b) := by
  intro hnl hok rest hr hcol
  have h1 : '\n' ∉ w := fun h => hnl (by simp [h])
  have h2 : '\n' ∉ t := fun h => hnl (by simp [h])
  have h3 : '\n' ∉ t' := fun h => hnl (by simp [h])
  have heq : w ++ (t ++ t') ++ (itemsFlat M is ++ rest) = w ++ (t ++ (t' ++ (itemsFlat M is ++ rest))) := by simp
  rw [heq] at hcol
  have hB := hb _ h3 hok rest hr ((hcol.move h1).move h2)
  have ha := (blockBody_start (U := U) hc hr.eol).2.after
  have : w ++ (t ++ t') ++ itemsFlat M is = w ++ (t ++ (t' ++ itemsFlat M is)) := by simp
  rw [this]
  refine builds_clause hw hne (by simpa using written_noBlank h) (.alt (.there (by simpa using compound_fails ht)
    (.here (.ofSeq (.step (reads_expr h (by simpa using ha)) (.step (.opt_some hB) (.nil _))) (hb := by simp [clauseB])))))

/-- The first alternative is not taken if there is no body. -/
theorem empty_fails {t rest : Str} {e : Expr} (h : Compound M names t ∨ Written M names 1 t e) (hr : Shut M rest) :
    Fl (.seq [.ref .expr_factor, .ref .generic_control]) (t ++ rest) := by
  rcases h with h | h
  · exact compound_fails h
  · exact .seq2 (reads_operand (P := Unit) (full := []) (k := 0) h ((hr.eol.stop (U := U)).after.mono (by omega))).eats (no_generic hr)

theorem clause_empty {c : Nat} {w t : Str} {e : Expr} (hw : Blanks w) (hne : w ≠ [])
    (h : Written M names 15 t e) (ht : Compound M names t ∨ Written M names 1 t e) :
    ReadsClause M U P names full k c (w ++ t) [] (.root none e) none := by
  intro hnl hok rest hr hcol
  have : w ++ t ++ itemsFlat M [] = w ++ t := by simp [itemsFlat]
  rw [this]
  refine builds_clause hw hne (written_noBlank h) (.alt (.there (empty_fails ht hr)
    (.here (.ofSeq (.step (y := []) (r := rest) (reads_expr h hr.eol.stop.after) (.step (x := []) (r := rest) (.opt_none (no_control hr)) (.nil _))) (hb := by simp [clauseB])))))

/-! Loops -/

/-- The statement of reading the expression of a loop with its body. -/
def ReadsLoop (M : Marks) (U : Uni) (P : Type) (names : Str → Option Char) (full : Str) (k c : Nat) (t : Str) (is : List Item)
    (e : Expr) (bs : List (Stmt P)) : Prop :=
  '\n' ∉ t → ItemsOk is → ∀ rest, Shut M rest → Col full k (t ++ (itemsFlat M is ++ rest)) c →
    NoBlank (t ++ (itemsFlat M is ++ rest)) ∧
    Builds M U P names full k (.ref .tail_for) (t ++ itemsFlat M is) rest (bx e :: bs.map .stmt)

theorem loop_factor {c : Nat} {t t' : Str} {e : Expr} {is : List Item} {b : Stmt P}
    (h : Written M names 1 t e) (ht : t'.head? ≠ some '!') (hc : ControlBody M names (k + t.length) (c + t.length) t' is b)
    (hb : ReadsBody M U P names full .generic_control (k + t.length) (c + t.length) t' is b) :
    ReadsLoop M U P names full k c (t ++ t') is (.root none e) [b] := by
  intro hnl hok rest hr hcol
  have h2 : '\n' ∉ t := fun h => hnl (by simp [h])
  have h3 : '\n' ∉ t' := fun h => hnl (by simp [h])
  have heq : t ++ t' ++ (itemsFlat M is ++ rest) = t ++ (t' ++ (itemsFlat M is ++ rest)) := by simp
  rw [heq] at hcol ⊢
  have hB := hb h3 hok rest hr (hcol.move h2)
  have ha := control_after (U := U) hc ht hr.eol
  have : t ++ t' ++ itemsFlat M is = t ++ (t' ++ itemsFlat M is) := by simp
  rw [this]
  exact ⟨written_noBlank h, .reduced rfl (.alt (.here (.ofSeq (.step (reads_operand h (by simpa using ha)) (.step hB (.nil _))))))⟩

theorem loop_compound {c : Nat} {t t' : Str} {e : Expr} {is : List Item} {b : Stmt P}
    (h : Augmented M names t e) (ht : Compound M names t) (hc : BlockBody M names (k + t.length) t' is b)
    (hb : ReadsControl M U P names full (k + t.length) t' is b) :
    ReadsLoop M U P names full k c (t ++ t') is (.root none e) [b] := by
  intro hnl hok rest hr hcol
  have h2 : '\n' ∉ t := fun h => hnl (by simp [h])
  have h3 : '\n' ∉ t' := fun h => hnl (by simp [h])
  have heq : t ++ t' ++ (itemsFlat M is ++ rest) = t ++ (t' ++ (itemsFlat M is ++ rest)) := by simp
  rw [heq] at hcol ⊢
  have hB := hb _ h3 hok rest hr (hcol.move h2)
  have ha := (blockBody_start (U := U) hc hr.eol).2
  have : t ++ t' ++ itemsFlat M is = t ++ (t' ++ itemsFlat M is) := by simp
  rw [this]
  exact ⟨augmented_noBlank h, .reduced rfl (.alt (.there (by simpa using compound_fails ht)
    (.here (.ofSeq (.step (augmented_reads h (by simpa using ha)) (.step (.opt_some hB) (.nil _)))))))⟩

theorem loop_empty {c : Nat} {t : Str} {e : Expr} (h : Augmented M names t e) (ht : Compound M names t ∨ Written M names 1 t e) :
    ReadsLoop M U P names full k c t [] (.root none e) [] := by
  intro hnl hok rest hr hcol
  have : t ++ itemsFlat M [] = t := by simp [itemsFlat]
  rw [this]
  exact ⟨augmented_noBlank h, .reduced rfl (.alt (.there (empty_fails ht hr)
    (.here (.ofSeq (.step (y := []) (r := rest) (augmented_reads h hr.eol.stop) (.step (x := []) (r := rest) (.opt_none (no_control hr)) (.nil _)))))))⟩

/-! Clauses `else` and `elif` -/

theorem line_flat {m : Nat} {t : Str} {is : List Item} : itemsFlat M (.line m t :: is) = '\n' :: (List.replicate m '\n' ++ (t ++ itemsFlat M is)) := by
  simp [itemsFlat, Item.flat]

theorem builds_nl {m : Nat} {rest : Str} (h : rest.head? ≠ some '\n') : Bd k (.ref .nl) ('\n' :: List.replicate m '\n') rest [] := by
  have : reNl.match? ('\n' :: List.replicate m '\n' ++ rest) = some rest := by
    refine RE.match?_many1 (by simp) ?_ (inClass_false ?_)
    · intro c hc
      simp only [List.mem_cons, List.mem_replicate] at hc
      rcases hc with rfl | ⟨_, rfl⟩ <;> rfl
    · intro c hc
      simp only [beq_eq_false_iff_ne]
      rintro rfl
      exact h hc
  obtain ⟨t, ht, _⟩ := Builds.rx (M := M) (U := U) (P := P) (names := names) (full := full) (k := k) this
  exact .ignored rfl ht

/-- The statement of reading a clause `else`. -/
def ReadsElse (M : Marks) (U : Uni) (P : Type) (names : Str → Option Char) (full : Str) (k : Nat) (is : List Item) (s : Stmt P) : Prop :=
  ItemsOk is → ∀ rest, Shut M rest → At full k (itemsFlat M is ++ rest) →
    Builds M U P names full k (.ref .clause_else) (itemsFlat M is) rest [.stmt s]

theorem line_ok {m : Nat} {t : Str} {is : List Item} (h : ItemsOk (.line m t :: is)) : '\n' ∉ t ∧ t ≠ [] ∧ ItemsOk is :=
  ⟨h.1.oneLine, h.1.nonempty, h.2.1⟩

theorem else_body {m : Nat} {t : Str} {is : List Item} {b : Stmt P}
    (h : ReadsBody M U P names full .generic_control (k + 1 + m + 4) 5 t is b) :
    ReadsElse M U P names full k (.line m (s!!"else" ++ t) :: is) (.elseClause (some b)) := by
  intro hok rest hr hat
  obtain ⟨h1, h2, h3⟩ := line_ok hok
  have hnl : '\n' ∉ t := fun h => h1 (by simp [h])
  have heq : itemsFlat M (.line m (s!!"else" ++ t) :: is) ++ rest = '\n' :: (List.replicate m '\n' ++ (s!!"else" ++ (t ++ (itemsFlat M is ++ rest)))) := by
    rw [line_flat]; simp
  rw [heq] at hat
  have hcol := hat.line.move (x := s!!"else") (by decide)
  have hB := h hnl h3 rest hr hcol
  have heq2 : itemsFlat M (.line m (s!!"else" ++ t) :: is) = ('\n' :: List.replicate m '\n') ++ (s!!"else" ++ (t ++ itemsFlat M is)) := by
    rw [line_flat]; simp
  rw [heq2]
  refine .plain (bs := [.stmt b]) (.ofSeq (.step (r := s!!"else" ++ (t ++ itemsFlat M is ++ rest)) (builds_nl (m := m) (by simp)) (.step (x := s!!"else") (r := t ++ itemsFlat M is ++ rest) (.lit _ _)
    (.step (y := []) (r := rest) (.opt_some (hB.at ?_)) (.nil _))))) rfl
  simp; omega

theorem else_empty {m : Nat} : ReadsElse M U P names full k [.line m (s!!"else")] (.elseClause (P := P) none) := by
  intro hok rest hr hat
  have heq2 : itemsFlat M [.line m (s!!"else")] = ('\n' :: List.replicate m '\n') ++ s!!"else" := by
    rw [line_flat]; simp [itemsFlat]
  rw [heq2]
  exact .plain (bs := []) (.ofSeq (.step (r := s!!"else" ++ rest) (builds_nl (m := m) (by simp)) (.step (x := s!!"else") (y := []) (r := rest) (.lit _ _)
    (.step (x := []) (y := []) (r := rest) (.opt_none (no_generic hr)) (.nil _))))) rfl

/-- The items do not begin with a group. -/
def NoGroup (is : List Item) : Prop := ∀ i, is.head? = some i → i.isGroup = false

theorem NoGroup.shut {is : List Item} {rest : Str} (h : NoGroup is) (hr : Shut M rest) : Shut M (itemsFlat M is ++ rest) := by
  cases is with
  | nil => exact hr
  | cons i is =>
    cases i with
    | line m t => rw [line_flat]; exact .nl
    | group inc js => cases h _ rfl

theorem else_noGroup {is : List Item} {s : Stmt P} (h : Else M names k is s) : NoGroup is := by
  cases h <;> (intro i hi; cases hi; rfl)

theorem elses_noGroup {is : List Item} {ss : List (Stmt P)} (h : Elses M names k is ss) : NoGroup is := by
  cases h with
  | nil => intro i hi; cases hi
  | cons h h' => cases h <;> (intro i hi; cases hi; rfl)

theorem elifs_noGroup {is : List Item} {cs : List (Expr × Option (Stmt P))} (h : Elifs M names k is cs) : NoGroup is := by
  cases h <;> (intro i hi; cases hi; try rfl)

theorem maybe_noGroup {is : List Item} {s : Option (Stmt P)} (h : MaybeElse M names k is s) : NoGroup is := by
  cases h with
  | none => intro i hi; cases hi
  | some h => exact else_noGroup h

theorem NoGroup.append {is js : List Item} (h : NoGroup is) (h' : NoGroup js) : NoGroup (is ++ js) := by
  cases is with
  | nil => exact h'
  | cons i is => exact h

/-- One clause `elif`. -/
def elifPeg : Peg NT := .seq [.ref .nl, .lit (s!!"elif"), .ref .clause_if]

/-- A control block may end here: no clause follows. -/
structure BlockEnd (M : Marks) (U : Uni) (rest : Str) : Prop where
  shut : Shut M rest
  noElse : Fails (rule M U) (.ref .clause_else) rest
  noElif : Fails (rule M U) elifPeg rest

theorem builds_elif {m : Nat} {t : Str} {is : List Item} {e : Expr} {b : Option (Stmt P)}
    (h : ReadsClause M U P names full (k + 1 + m + 4) 5 t is e b) (hok : ItemsOk (.line m (s!!"elif" ++ t) :: is)) {rest : Str} (hr : Shut M rest)
    (hat : At full k (itemsFlat M (.line m (s!!"elif" ++ t) :: is) ++ rest)) :
    Bd k elifPeg (itemsFlat M (.line m (s!!"elif" ++ t) :: is)) rest [.clause e b] := by
  obtain ⟨h1, h2, h3⟩ := line_ok hok
  have hnl : '\n' ∉ t := fun h => h1 (by simp [h])
  have heq : itemsFlat M (.line m (s!!"elif" ++ t) :: is) ++ rest = '\n' :: (List.replicate m '\n' ++ (s!!"elif" ++ (t ++ (itemsFlat M is ++ rest)))) := by
    rw [line_flat]; simp
  rw [heq] at hat
  have hcol := hat.line.move (x := s!!"elif") (by decide)
  have hB := h hnl h3 rest hr hcol
  have heq2 : itemsFlat M (.line m (s!!"elif" ++ t) :: is) = ('\n' :: List.replicate m '\n') ++ (s!!"elif" ++ (t ++ itemsFlat M is)) := by
    rw [line_flat]; simp
  rw [heq2]
  refine .ofSeq (.step (r := s!!"elif" ++ (t ++ itemsFlat M is ++ rest)) (builds_nl (m := m) (by simp)) (.step (x := s!!"elif") (r := t ++ itemsFlat M is ++ rest) (.lit _ _)
    (.step (y := []) (r := rest) (hB.at ?_) (.nil _))))
  simp; omega

theorem eats_nl {m : Nat} {rest : Str} (h : rest.head? ≠ some '\n') : Eats M U (.ref .nl) ('\n' :: List.replicate m '\n') rest :=
  (builds_nl (P := Unit) (names := fun _ => none) (full := []) (k := 0) h).eats

theorem line_else {m : Nat} {s : Str} (h : s.head? ≠ some '\n') (hl : Fl (.lit (s!!"else")) s) :
    Fl (.ref .clause_else) ('\n' :: (List.replicate m '\n' ++ s)) :=
  .ref (.seq2 (x := '\n' :: List.replicate m '\n') (eats_nl h) hl)

theorem line_elif {m : Nat} {s : Str} (h : s.head? ≠ some '\n') (hl : Fq [.lit (s!!"elif"), .ref .clause_if] s) :
    Fl elifPeg ('\n' :: (List.replicate m '\n' ++ s)) :=
  .seq (.after (x := '\n' :: List.replicate m '\n') (eats_nl h) hl)

/-- The statement of reading clauses `elif`. -/
def ReadsElifs (M : Marks) (U : Uni) (P : Type) (names : Str → Option Char) (full : Str) (k : Nat) (is : List Item)
    (cs : List (Expr × Option (Stmt P))) : Prop :=
  ItemsOk is → ∀ rest, Shut M rest → Fails (rule M U) elifPeg rest → At full k (itemsFlat M is ++ rest) →
    BuildsStar M U P names full k elifPeg (itemsFlat M is) rest (cs.map (fun c => .clause c.1 c.2))

theorem elifs_nil : ReadsElifs M U P names full k [] [] := fun _ _ _ hf _ => .nil hf

theorem elifs_cons {m : Nat} {t : Str} {is js : List Item} {e : Expr} {b : Option (Stmt P)} {cs : List (Expr × Option (Stmt P))}
    (h : ReadsClause M U P names full (k + 1 + m + 4) 5 t is e b) (hg : NoGroup js)
    (h' : ReadsElifs M U P names full (k + (itemsFlat M (.line m (s!!"elif" ++ t) :: is)).length) js cs) :
    ReadsElifs M U P names full k (.line m (s!!"elif" ++ t) :: (is ++ js)) ((e, b) :: cs) := by
  intro hok rest hr hf hat
  have hok' : ItemsOk ((.line m (s!!"elif" ++ t) :: is) ++ js) := hok
  obtain ⟨o1, o2⟩ := ItemsOk.append hok'
  have heq : itemsFlat M (.line m (s!!"elif" ++ t) :: (is ++ js)) = itemsFlat M (.line m (s!!"elif" ++ t) :: is) ++ itemsFlat M js := by
    rw [← itemsFlat_append]; rfl
  rw [heq] at hat ⊢
  rw [List.append_assoc] at hat
  exact .cons (builds_elif h o1 (hg.shut hr) hat) (by rw [line_flat]; simp) (h' o2 rest hr hf hat.move) rfl

/-- The statement of reading clauses `else`. -/
def ReadsElses (M : Marks) (U : Uni) (P : Type) (names : Str → Option Char) (full : Str) (k : Nat) (is : List Item)
    (ss : List (Stmt P)) : Prop :=
  ItemsOk is → ∀ rest, Shut M rest → Fails (rule M U) (.ref .clause_else) rest → At full k (itemsFlat M is ++ rest) →
    BuildsStar M U P names full k (.ref .clause_else) (itemsFlat M is) rest (ss.map .stmt)

theorem elses_nil : ReadsElses M U P names full k [] [] := fun _ _ _ hf _ => .nil hf

theorem else_ne {is : List Item} {s : Stmt P} (h : Else M names k is s) : itemsFlat M is ≠ [] := by
  cases h <;> (rw [line_flat]; simp)

theorem elses_cons {is js : List Item} {s : Stmt P} {ss : List (Stmt P)} (he : Else M names k is s)
    (h : ReadsElse M U P names full k is s) (hg : NoGroup js)
    (h' : ReadsElses M U P names full (k + (itemsFlat M is).length) js ss) : ReadsElses M U P names full k (is ++ js) (s :: ss) := by
  intro hok rest hr hf hat
  obtain ⟨o1, o2⟩ := ItemsOk.append hok
  rw [itemsFlat_append] at hat ⊢
  rw [List.append_assoc] at hat
  exact .cons (h o1 _ (hg.shut hr) hat) (else_ne he) (h' o2 rest hr hf hat.move) rfl

/-- The statement of reading a clause `else` that may be missing. -/
def ReadsMaybe (M : Marks) (U : Uni) (P : Type) (names : Str → Option Char) (full : Str) (k : Nat) (is : List Item)
    (s : Option (Stmt P)) : Prop :=
  ItemsOk is → ∀ rest, BlockEnd M U rest → At full k (itemsFlat M is ++ rest) →
    Fails (rule M U) elifPeg (itemsFlat M is ++ rest) ∧
    Builds M U P names full k (.opt (.ref .clause_else)) (itemsFlat M is) rest (s.toList.map .stmt)

theorem maybe_none : ReadsMaybe M U P names full k [] none := fun _ _ hr _ => ⟨hr.noElif, .opt_none hr.noElse⟩

theorem maybe_some {is : List Item} {s : Stmt P} (he : Else M names k is s) (h : ReadsElse M U P names full k is s) :
    ReadsMaybe M U P names full k is (some s) := by
  intro hok rest hr hat
  refine ⟨?_, .opt_some (h hok rest hr.shut hat)⟩
  cases he with
  | @body _ m t is b =>
    rw [line_flat]
    have : '\n' :: (List.replicate m '\n' ++ (s!!"else" ++ t ++ itemsFlat M is)) ++ rest = '\n' :: (List.replicate m '\n' ++ (s!!"else" ++ (t ++ (itemsFlat M is ++ rest)))) := by simp
    rw [this]
    exact line_elif (by simp) (.head (.lit rfl))
  | @empty _ m =>
    rw [line_flat]
    have : '\n' :: (List.replicate m '\n' ++ (s!!"else" ++ itemsFlat M [])) ++ rest = '\n' :: (List.replicate m '\n' ++ (s!!"else" ++ rest)) := by simp [itemsFlat]
    rw [this]
    exact line_elif (by simp) (.head (.lit rfl))

/-! Control blocks -/

/-- The statement of reading a block after which no clause may follow. -/
def ReadsBlock (M : Marks) (U : Uni) (P : Type) (names : Str → Option Char) (full : Str) (p : Peg NT) (k c : Nat) (t : Str) (is : List Item)
    (s : Stmt P) : Prop :=
  '\n' ∉ t → ItemsOk is → ∀ rest, BlockEnd M U rest → Col full k (t ++ (itemsFlat M is ++ rest)) c →
    Builds M U P names full k p (t ++ itemsFlat M is) rest [.stmt s]

theorem splitClauses_map (cs : List (Expr × Option (Stmt P))) (s : Option (Stmt P)) :
    splitClauses (cs.map (fun c => Built.clause c.1 c.2) ++ s.toList.map .stmt) = .ok (cs, s) := by
  induction cs with
  | nil => cases s <;> rfl
  | cons c cs ih =>
    simp only [List.map_cons, List.cons_append, splitClauses, ih]
    rfl

theorem clauses_noQual (cs : List (Expr × Option (Stmt P))) (s : Option (Stmt P)) :
    NoQual (cs.map (fun c => Built.clause c.1 c.2) ++ s.toList.map .stmt) := by
  induction cs with
  | nil => cases s with
    | none => exact .nil
    | some s => exact .cons (by simp) .nil
  | cons c cs ih => exact .cons (by simp) ih

theorem reads_ifBlock {c : Nat} {t : Str} {is js ls : List Item} {e : Expr} {b : Option (Stmt P)}
    {cs : List (Expr × Option (Stmt P))} {els : Option (Stmt P)} (h1 : ReadsClause M U P names full (k + 2) (c + 2) t is e b)
    (h2 : ReadsElifs M U P names full (k + 2 + t.length + (itemsFlat M is).length) js cs)
    (h3 : ReadsMaybe M U P names full (k + 2 + t.length + (itemsFlat M (is ++ js)).length) ls els)
    (hj : NoGroup js) (hl : NoGroup ls) :
    ReadsBlock M U P names full (.ref .block_if) k c (s!!"if" ++ t) (is ++ (js ++ ls)) (.ifBlock ((e, b) :: cs) els) := by
  intro hnl hok rest hr hcol
  obtain ⟨o1, o2⟩ := ItemsOk.append hok
  obtain ⟨o2, o3⟩ := ItemsOk.append o2
  have hcol' : Col full k (s!!"if" ++ (t ++ (itemsFlat M is ++ (itemsFlat M js ++ (itemsFlat M ls ++ rest))))) c := by
    simpa [itemsFlat_append] using hcol
  have c1 := hcol'.move (by decide)
  have c2 := c1.at.move.move
  have c3 := c2.move
  have hat3 : At full (k + 2 + t.length + (itemsFlat M (is ++ js)).length) (itemsFlat M ls ++ rest) := by
    rw [itemsFlat_append]
    simpa [Nat.add_assoc] using c3
  obtain ⟨f3, b3⟩ := h3 o3 rest hr hat3
  have sl := hl.shut (rest := rest) hr.shut
  have b1 := h1 (fun h => hnl (by simp [h])) o1 _ (hj.shut sl) c1
  have b2 := h2 o2 _ sl f3 c2
  have heq : s!!"if" ++ t ++ itemsFlat M (is ++ (js ++ ls)) = s!!"if" ++ (t ++ itemsFlat M is ++ (itemsFlat M js ++ itemsFlat M ls)) := by
    simp [itemsFlat_append]
  rw [heq]
  refine .plain (bs := ((e, b) :: cs).map (fun c => Built.clause c.1 c.2) ++ els.toList.map .stmt) (.ofSeq (.step (x := s!!"if") (r := t ++ itemsFlat M is ++ (itemsFlat M js ++ (itemsFlat M ls ++ rest))) (.lit _ _)
    (.step (r := itemsFlat M js ++ (itemsFlat M ls ++ rest)) b1.at (.step (r := itemsFlat M ls ++ rest) (.at (.star b2) ?_) (.step (y := []) (r := rest) (b3.at ?_) (.nil _)))))) ?_
  · simp; omega
  · simp [itemsFlat_append]; omega
  · rw [attachQuals_id (clauses_noQual _ _)]
    simp only [setup, splitClauses_map]; rfl

theorem reads_whileBlock {c : Nat} {t : Str} {is ls : List Item} {e : Expr} {b els : Option (Stmt P)}
    (h1 : ReadsClause M U P names full (k + 5) (c + 5) t is e b)
    (h3 : ReadsMaybe M U P names full (k + 5 + t.length + (itemsFlat M is).length) ls els) (hl : NoGroup ls) :
    ReadsBlock M U P names full (.ref .block_while) k c (s!!"while" ++ t) (is ++ ls) (.whileBlock e b els) := by
  intro hnl hok rest hr hcol
  obtain ⟨o1, o3⟩ := ItemsOk.append hok
  have hcol' : Col full k (s!!"while" ++ (t ++ (itemsFlat M is ++ (itemsFlat M ls ++ rest)))) c := by
    simpa [itemsFlat_append] using hcol
  have c1 := hcol'.move (by decide)
  have c2 := c1.at.move.move
  obtain ⟨f3, b3⟩ := h3 o3 rest hr c2
  have sl := hl.shut (rest := rest) hr.shut
  have b1 := h1 (fun h => hnl (by simp [h])) o1 _ sl c1
  have heq : s!!"while" ++ t ++ itemsFlat M (is ++ ls) = s!!"while" ++ (t ++ itemsFlat M is ++ itemsFlat M ls) := by
    simp [itemsFlat_append]
  rw [heq]
  refine .plain (bs := .clause e b :: els.toList.map .stmt) (.ofSeq (.step (x := s!!"while") (r := t ++ itemsFlat M is ++ (itemsFlat M ls ++ rest)) (.lit _ _)
    (.step (r := itemsFlat M ls ++ rest) b1.at (.step (y := []) (r := rest) (b3.at ?_) (.nil _))))) ?_
  · simp; omega
  · cases els <;> rfl

theorem asStmts_map (ss : List (Stmt P)) : asStmts (ss.map Built.stmt) = .ok ss := by
  induction ss with
  | nil => rfl
  | cons s ss ih => simp only [List.map_cons, asStmts, ih]; rfl

theorem stmts_noQual (ss : List (Stmt P)) : NoQual (ss.map Built.stmt) := by
  induction ss with
  | nil => exact .nil
  | cons s ss ih => exact .cons (by simp) ih

theorem in_end {w w2 s : Str} (hw : Blanks w) (hne : w ≠ []) (hw2 : Blanks w2) (hn2 : w2 ≠ []) : TargetsEnd M U w (s!!"in" ++ (w2 ++ s)) := by
  refine ⟨hw, .cons rfl, by simp, ?_, ?_⟩
  · cases w2 with
    | nil => exact absurd rfl hn2
    | cons c w2 =>
      refine .ref (.alt (.cons (.seq1 (.lit1 (by decide))) (.cons (.ref (.seq1 (.name_reserved (c := c) (by decide) ?_ (.inl rfl)))) (.nil _))))
      rcases hw2 c (by simp) with rfl | rfl <;> rfl
  · cases w with
    | nil => exact absurd rfl hne
    | cons c w =>
      intro d hd
      cases hd
      rcases hw c (by simp) with rfl | rfl <;> rfl

theorem reads_forBlock {c : Nat} {w t w1 w2 t' : Str} {xs : List Target} {is ls : List Item} {e : Expr} {bs : List (Stmt P)}
    {els : Option (Stmt P)} (hw : Blanks w) (hn : w ≠ []) (ht : Targets t xs) (hw1 : Blanks w1) (hn1 : w1 ≠ []) (hw2 : Blanks w2) (hn2 : w2 ≠ [])
    (h1 : ReadsLoop M U P names full (k + 3 + w.length + t.length + w1.length + 2 + w2.length)
        (c + 3 + w.length + t.length + w1.length + 2 + w2.length) t' is e bs)
    (h3 : ReadsMaybe M U P names full (k + 3 + w.length + t.length + w1.length + 2 + w2.length + t'.length + (itemsFlat M is).length) ls els)
    (hl : NoGroup ls) :
    ReadsBlock M U P names full (.ref .block_for) k c (s!!"for" ++ (w ++ (t ++ (w1 ++ (s!!"in" ++ (w2 ++ t')))))) (is ++ ls)
        (.forBlock (.many xs) e (bs ++ els.toList)) := by
  intro hnl hok rest hr hcol
  obtain ⟨o1, o3⟩ := ItemsOk.append hok
  simp only [List.mem_append, not_or] at hnl
  obtain ⟨n0, n1, n2, n3, n4, n5, n6⟩ := hnl
  have hcol' : Col full k (s!!"for" ++ (w ++ (t ++ (w1 ++ (s!!"in" ++ (w2 ++ (t' ++ (itemsFlat M is ++ (itemsFlat M ls ++ rest))))))))) c := by
    simpa [itemsFlat_append] using hcol
  have c1 := (((((hcol'.move n0).move n1).move n2).move n3).move n4).move n5
  have c2 := c1.at.move.move
  obtain ⟨f3, b3⟩ := h3 o3 rest hr c2
  have sl := hl.shut (rest := rest) hr.shut
  obtain ⟨nb, b1⟩ := h1 n6 o1 _ sl c1
  have heq : s!!"for" ++ (w ++ (t ++ (w1 ++ (s!!"in" ++ (w2 ++ t'))))) ++ itemsFlat M (is ++ ls) =
      s!!"for" ++ (w ++ (t ++ (w1 ++ (s!!"in" ++ (w2 ++ (t' ++ itemsFlat M is ++ itemsFlat M ls)))))) := by
    simp [itemsFlat_append]
  rw [heq]
  have bt := targets_builds (P := P) (names := names) (full := full) (k := k + 3 + w.length) ht
    (in_end (M := M) (U := U) (s := t' ++ itemsFlat M is ++ (itemsFlat M ls ++ rest)) hw1 hn1 hw2 hn2)
  refine .plain (bs := .target (.many xs) :: bx e :: (bs ++ els.toList).map .stmt) (.ofSeq (.step (x := s!!"for")
    (r := w ++ (t ++ (w1 ++ (s!!"in" ++ (w2 ++ (t' ++ itemsFlat M is ++ (itemsFlat M ls ++ rest))))))) (.lit _ _)
    (.step (r := t ++ (w1 ++ (s!!"in" ++ (w2 ++ (t' ++ itemsFlat M is ++ (itemsFlat M ls ++ rest)))))) (.space hw hn (bt.2 _)) (.step (bt.1.at ?_) (.step (.space hw1 hn1 (.cons rfl)) (.step (x := s!!"in") (r := w2 ++ (t' ++ itemsFlat M is ++ (itemsFlat M ls ++ rest))) (.lit _ _)
    (.step (.space hw2 hn2 (by simpa using nb))
    (.step (r := itemsFlat M ls ++ rest) (b1.at ?_) (.step (y := []) (r := rest) (b3.at ?_) (.nil _)))))))))) ?_
  · simp
  · simp
  · simp; omega
  · rw [attachQuals_id]
    · simp only [setup, bx, asStmts_map]; rfl
    · exact .cons (by simp) (.cons (by simp [bx]) (stmts_noQual _))

theorem reads_tryBlock {c : Nat} {t : Str} {is ls : List Item} {b : Stmt P} {ss : List (Stmt P)}
    (h1 : ReadsBody M U P names full .generic_control (k + 3) (c + 3) t is b)
    (h3 : ReadsElses M U P names full (k + 3 + t.length + (itemsFlat M is).length) ls ss) (hl : NoGroup ls) :
    ReadsBlock M U P names full (.ref .block_try) k c (s!!"try" ++ t) (is ++ ls) (.tryBlock (b :: ss)) := by
  intro hnl hok rest hr hcol
  obtain ⟨o1, o3⟩ := ItemsOk.append hok
  have hcol' : Col full k (s!!"try" ++ (t ++ (itemsFlat M is ++ (itemsFlat M ls ++ rest)))) c := by
    simpa [itemsFlat_append] using hcol
  have c1 := hcol'.move (by decide)
  have c2 := c1.at.move.move
  have b3 := h3 o3 rest hr.shut hr.noElse c2
  have sl := hl.shut (rest := rest) hr.shut
  have b1 := h1 (fun h => hnl (by simp [h])) o1 _ sl c1
  have heq : s!!"try" ++ t ++ itemsFlat M (is ++ ls) = s!!"try" ++ (t ++ itemsFlat M is ++ itemsFlat M ls) := by
    simp [itemsFlat_append]
  rw [heq]
  refine .plain (bs := (b :: ss).map .stmt) (.alt (.here (.reduced rfl (.ofSeq (.step (x := s!!"try") (r := t ++ itemsFlat M is ++ (itemsFlat M ls ++ rest)) (.lit _ _)
    (.step (r := itemsFlat M ls ++ rest) (.opt_some b1.at) (.step (y := []) (r := rest) (.at (.star b3) ?_) (.nil _)))))))) ?_
  · simp; omega
  · rw [attachQuals_id (stmts_noQual _)]
    simp only [setup, asStmts_map]; rfl

theorem reads_optional {c : Nat} {w t : Str} {is : List Item} {s : Stmt P} (hw : Blanks w) (hs : ∀ u, NoBlank (t ++ u))
    (h : ReadsBody M U P names full .block_struct (k + 1 + w.length) (c + 1 + w.length) t is s) :
    ReadsBlock M U P names full (.ref .block_try) k c ('?' :: (w ++ t)) is (.tryBlock [s]) := by
  intro hnl hok rest hr hcol
  have hcol' : Col full k (['?'] ++ (w ++ (t ++ (itemsFlat M is ++ rest)))) c := by simpa using hcol
  have hB := h (fun h => hnl (by simp [h])) hok rest hr.shut ((hcol'.move (by decide)).move (blanks_nl hw))
  have heq : '?' :: (w ++ t) ++ itemsFlat M is = ['?'] ++ (w ++ (t ++ itemsFlat M is)) := by simp
  rw [heq]
  refine .plain (bs := [.stmt s]) (.alt (.there (.first 200 rfl) (.here (.reduced rfl (.ofSeq (.step (x := ['?']) (r := w ++ (t ++ itemsFlat M is ++ rest)) (.lit _ _)
    (.step (r := t ++ itemsFlat M is ++ rest) (.ws hw (by simpa using hs (itemsFlat M is ++ rest))) (.step (y := []) (r := rest) (.opt_some (.alt (.here hB.at))) (.nil _))))))))) rfl

end
end Verif
