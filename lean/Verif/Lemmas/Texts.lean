import Verif.Lemmas.Reads
import Verif.Lemmas.Source
import Verif.Spec.Scripts

/-! Ends of lines, groups of lines, text blocks. -/

set_option linter.unusedSectionVars false

namespace Verif
open Py Spec

section
variable {M : Marks} {U : Uni} {P : Type} {names : Str → Option Char} {full : Str} {k : Nat}

local notation "Bd" => Builds M U P names full
local notation "Bq" => BuildsSeq M U P names full
local notation "Bs" => BuildsStar M U P names full
local notation "Bm" => Many M U P names full
local notation "Fl" => Fails (rule M U)
local notation "Fq" => FailsSeq (rule M U)

/-! Ends of lines -/

/-- A newline or a mark of indentation. -/
def EolChar (M : Marks) (c : Char) : Prop := c = '\n' ∨ isMark M c = true

/-- The end of a line. -/
def Eol (M : Marks) (rest : Str) : Prop := ∀ c, rest.head? = some c → EolChar M c

/-- The end of a group, a newline, or the end of the script. -/
def Shut (M : Marks) (rest : Str) : Prop :=
  ∀ c, rest.head? = some c → c = '\n' ∨ c = M.dedentS ∨ c = M.dedentT

/-- The end of a group. -/
def GroupEnd (M : Marks) (rest : Str) : Prop := ∃ c s, rest = c :: s ∧ (c = M.dedentS ∨ c = M.dedentT)

theorem GroupEnd.closed {rest : Str} (h : GroupEnd M rest) : Shut M rest := by
  obtain ⟨c, s, rfl, h⟩ := h
  intro d hd
  cases hd
  exact .inr h

theorem Shut.eol {rest : Str} (h : Shut M rest) : Eol M rest := by
  intro c hc
  rcases h c hc with h | h | h
  · exact .inl h
  · exact .inr (by simp [isMark, h])
  · exact .inr (by simp [isMark, h])

theorem Shut.nil : Shut M [] := by intro c hc; cases hc

theorem Shut.nl {s : Str} : Shut M ('\n' :: s) := by intro c hc; cases hc; exact .inl rfl

variable [hM : MarksApart M U]

include hM in
variable (U) in
theorem EolChar.high {c : Char} (h : EolChar M c) : c.toNat = 10 ∨ 0x2768 ≤ c.toNat := by
  rcases h with rfl | h
  · exact .inl rfl
  · exact .inr (hM.high c h)

include hM in
variable (U) in
theorem EolChar.ne {c a : Char} (h : EolChar M c) (ha : a.toNat ≠ 10 ∧ a.toNat < 0x2768 := by decide) : c ≠ a := by
  rintro rfl
  have := h.high U
  omega

include hM in
variable (U) in
theorem EolChar.notBlank {c : Char} (h : EolChar M c) : isBlank c = false := by
  have h1 := h.ne U (a := ' ')
  have h2 := h.ne U (a := '\t')
  simp [isBlank, h1, h2]

include hM in
variable (U) in
theorem EolChar.notAz {c : Char} (h : EolChar M c) : azI c = false ∧ ascDigit c = false ∧ c ≠ '_' := by
  have h1 := h.high U
  refine ⟨?_, ?_, h.ne U⟩
  · simp only [azI, Bool.or_eq_false_iff, Bool.and_eq_false_iff, decide_eq_false_iff_not, beq_eq_false_iff_ne]
    omega
  · simp only [ascDigit, Bool.and_eq_false_iff, decide_eq_false_iff_not]
    omega

include hM in
variable (U) in
theorem EolChar.notName {c : Char} (h : EolChar M c) : nameStart c = false ∧ nameChar c = false := by
  obtain ⟨h1, h2, h3⟩ := h.notAz U
  simp [nameStart, nameChar, h1, h2, h3]

theorem EolChar.notDigit {c : Char} (h : EolChar M c) : reDigit U c = false := by
  obtain ⟨h1, h2, h3⟩ := h.notAz U
  simp only [reDigit, h2, Bool.false_or, Bool.and_eq_false_iff]
  rcases h with rfl | h
  · exact .inl (by decide)
  · exact .inr (hM.digit c h)

theorem EolChar.notWord {c : Char} (h : EolChar M c) : reWord U c = false := by
  obtain ⟨h1, h2, h3⟩ := h.notAz U
  simp only [reWord, h1, h2, Bool.false_or, Bool.or_eq_false_iff, Bool.and_eq_false_iff, beq_eq_false_iff_ne]
  rcases h with rfl | h
  · exact ⟨by decide, .inl (by decide)⟩
  · exact ⟨h3, .inr (hM.word c h)⟩

theorem EolChar.notXml {c : Char} (h : EolChar M c) : xmlMid U c = false := by
  obtain ⟨h1, h2, h3⟩ := h.notAz U
  have h4 := h.ne U (a := '.')
  have h5 := h.ne U (a := '-')
  have h6 := h.ne U (a := ':')
  rcases h with rfl | h
  · rfl
  · obtain ⟨h7, h8⟩ := hM.xml c h
    simp [xmlMid, xmlEnd, xmlStart, h1, h2, h3, h4, h5, h6, h7, h8]

theorem EolChar.ends {c : Char} (h : EolChar M c) : endChar U c = true := by
  have h2 := (h.notName U).2
  have h3 := h.notDigit (U := U)
  simp [endChar, h2, h3, h.ne U (a := '\''), h.ne U (a := '"'), h.ne U (a := '?'), h.ne U (a := '!'), h.ne U (a := '('),
    h.ne U (a := '.'), h.ne U (a := '[')]

theorem EolChar.notLine {ex : List Char} {c : Char} (h : EolChar M c) : lineChar M ex c = false := by
  rcases h with rfl | h
  · simp [lineChar]
  · simp only [isMark, Bool.or_eq_true] at h
    rcases h with ((h | h) | h) | h <;> simp [lineChar, h]

include hM in
variable (U) in
theorem Eol.noBlank {rest : Str} (h : Eol M rest) : NoBlank rest := fun c hc => (h c hc).notBlank U

include hM in
variable (U) in
theorem Eol.nameEnd {rest : Str} (h : Eol M rest) : NameEnd rest := fun c hc => ((h c hc).notName U).2

theorem Eol.lit {rest : Str} (h : Eol M rest) {a : Char} {l : Str} (ha : a.toNat ≠ 10 ∧ a.toNat < 0x2768 := by decide) :
    Fl (.lit (a :: l)) rest := by
  cases rest with
  | nil => exact .lit rfl
  | cons c s => exact .lit1 ((h c rfl).ne U ha)

theorem Eol.after {rest : Str} (h : Eol M rest) : After M U 15 rest := by
  refine .stop ?_
  intro c hc
  have hc := h c hc
  refine ⟨hc.ends, hc.notBlank U, ?_⟩
  simp [hc.ne U (a := '('), hc.ne U (a := '['), hc.ne U (a := '.'), hc.ne U (a := '*'), hc.ne U (a := '/'),
    hc.ne U (a := '%'), hc.ne U (a := '+'), hc.ne U (a := '-'), hc.ne U (a := '<'), hc.ne U (a := '>'), hc.ne U (a := '&'),
    hc.ne U (a := '^'), hc.ne U (a := '|'), hc.ne U (a := ':'), hc.ne U (a := '='), hc.ne U (a := '!'), hc.ne U (a := 'n'),
    hc.ne U (a := 'i')]

include hM in
variable (U) in
theorem Eol.partsEnd {rest : Str} (h : Eol M rest) : PartsEnd M none rest := by
  intro c hc
  have hc := h c hc
  refine ⟨hc.ne U, hc.ne U, hc.ne U, hc.notLine, (hc.notName U).2, ?_⟩
  simp [hc.ne U (a := '('), hc.ne U (a := '['), hc.ne U (a := '.'), hc.ne U (a := '?'), hc.ne U (a := '!')]

/-! Marks -/

include hM in
variable (U) in
theorem marks_ne : M.indentS ≠ M.dedentS ∧ M.indentS ≠ M.indentT ∧ M.indentS ≠ M.dedentT ∧
    M.dedentS ≠ M.indentT ∧ M.dedentS ≠ M.dedentT ∧ M.indentT ≠ M.dedentT := by
  have h := hM.distinct
  simp only [Marks.Distinct, List.nodup_cons, List.mem_cons, List.not_mem_nil, or_false, not_or] at h
  exact ⟨h.1.1, h.1.2.1, h.1.2.2, h.2.1.1, h.2.1.2, h.2.2.1⟩

include hM in
variable (U) in
theorem mark_nl {c : Char} (h : isMark M c = true) : c ≠ '\n' := by
  rintro rfl
  have := hM.high _ h
  revert this; decide

theorem Shut.no_indent {rest : Str} (h : Shut M rest) : Fl (.ref .indent_s) rest ∧ Fl (.ref .indent_t) rest := by
  obtain ⟨h1, h2, h3, h4, h5, h6⟩ := marks_ne (M := M) U
  have n1 : M.indentS ≠ '\n' := mark_nl (M := M) U (by simp [isMark])
  have n2 : M.indentT ≠ '\n' := mark_nl (M := M) U (by simp [isMark])
  cases rest with
  | nil => exact ⟨.ref (.lit rfl), .ref (.lit rfl)⟩
  | cons c s =>
    rcases h c rfl with rfl | rfl | rfl
    · exact ⟨.ref (.lit1 (Ne.symm n1)), .ref (.lit1 (Ne.symm n2))⟩
    · exact ⟨.ref (.lit1 (Ne.symm h1)), .ref (.lit1 h4)⟩
    · exact ⟨.ref (.lit1 (Ne.symm h3)), .ref (.lit1 (Ne.symm h6))⟩

/-- The rule of a group with the core `co`. -/
def tailRule (co : NT) : Peg NT :=
  .alt [.seq [.ref .indent_s, .ref co, .ref .dedent_s], .seq [.ref .indent_t, .ref co, .ref .dedent_t]]

theorem no_tail {tl co : NT} (hrule : rule M U tl = tailRule co) {rest : Str} (h : Shut M rest) : Fl (.ref tl) rest := by
  refine .ref ?_
  rw [hrule]
  exact .alt (.cons (.seq1 h.no_indent.1) (.cons (.seq1 h.no_indent.2) (.nil _)))

/-- The marks before and after a group. -/
def openMarks (M : Marks) (inc : Str) : Str := inc.map (fun c => if c = ' ' then M.indentS else M.indentT)
def closeMarks (M : Marks) (inc : Str) : Str := inc.reverse.map (fun c => if c = ' ' then M.dedentS else M.dedentT)

theorem flat_group (inc : Str) (items : List Item) :
    (Item.group inc items).flat M = openMarks M inc ++ (itemsFlat M items ++ closeMarks M inc) := by
  simp [Item.flat, openMarks, closeMarks]

theorem closeMarks_end {inc rest : Str} (h : inc ≠ []) : GroupEnd M (closeMarks M inc ++ rest) := by
  have : inc.reverse ≠ [] := by simpa
  obtain ⟨c, s, hs⟩ := List.exists_cons_of_ne_nil this
  refine ⟨_, _, by rw [closeMarks, hs, List.map_cons, List.cons_append], ?_⟩
  split <;> simp

omit hM in
theorem openMarks_eol {inc x rest : Str} (h : inc ≠ []) : Eol M (openMarks M inc ++ x ++ rest) := by
  obtain ⟨c, s, rfl⟩ := List.exists_cons_of_ne_nil h
  intro d hd
  simp only [openMarks, List.map_cons, List.cons_append, List.head?_cons, Option.some.injEq] at hd
  rw [← hd]
  right
  split <;> simp [isMark]

theorem indent_one {c : Char} (hc : c = ' ' ∨ c = '\t') {rest : Str} :
    Bd k (.ref (if c = ' ' then .indent_s else .indent_t)) [if c = ' ' then M.indentS else M.indentT] rest [.indent c] := by
  rcases hc with rfl | rfl
  · exact .plain (n := .indent_s) (bs := []) (.lit _ _) rfl
  · exact .plain (n := .indent_t) (bs := []) (.lit _ _) rfl

theorem dedent_one {c : Char} (hc : c = ' ' ∨ c = '\t') {rest : Str} :
    Bd k (.ref (if c = ' ' then .dedent_s else .dedent_t)) [if c = ' ' then M.dedentS else M.dedentT] rest [.dedent c] := by
  rcases hc with rfl | rfl
  · exact .plain (n := .dedent_s) (bs := []) (.lit _ _) rfl
  · exact .plain (n := .dedent_t) (bs := []) (.lit _ _) rfl

/-- One level of indentation. -/
theorem builds_level {tl co : NT} (hrule : rule M U tl = tailRule co) (hred : isReduced tl = true) {c : Char}
    (hc : c = ' ' ∨ c = '\t') {x rest : Str} {bs : List (Built P)}
    (h : Bd (k + 1) (.ref co) x ((if c = ' ' then M.dedentS else M.dedentT) :: rest) bs) :
    Bd k (.ref tl) ((if c = ' ' then M.indentS else M.indentT) :: (x ++ [if c = ' ' then M.dedentS else M.dedentT])) rest
      (.indent c :: (bs ++ [.dedent c])) := by
  refine .reduced hred ?_
  rw [hrule]
  obtain ⟨h1, h2, h3, h4, h5, h6⟩ := marks_ne (M := M) U
  have key : ∀ p q, Bd k (.ref p) [if c = ' ' then M.indentS else M.indentT] (x ++ (if c = ' ' then M.dedentS else M.dedentT) :: rest) [.indent c] →
      Bd (k + 1 + x.length) (.ref q) [if c = ' ' then M.dedentS else M.dedentT] rest [.dedent c] →
      Bd k (.seq [.ref p, .ref co, .ref q]) ((if c = ' ' then M.indentS else M.indentT) :: (x ++ [if c = ' ' then M.dedentS else M.dedentT])) rest
      (.indent c :: (bs ++ [.dedent c])) := by
    intro p q hp hq
    exact .ofSeq (.step hp (.step h (.step hq (.nil _))))
  have hi := indent_one (M := M) (U := U) (P := P) (names := names) (full := full) (k := k) hc
    (rest := x ++ (if c = ' ' then M.dedentS else M.dedentT) :: rest)
  have hd := dedent_one (M := M) (U := U) (P := P) (names := names) (full := full) (k := k + 1 + x.length) hc (rest := rest)
  rcases hc with rfl | rfl
  · exact .alt (.here (key _ _ hi hd))
  · refine .alt (.there (.seq1 (.ref (.lit1 ?_))) (.here (key _ _ hi hd)))
    simpa using Ne.symm h2

/-- A group of any indentation. -/
theorem builds_group {tl co : NT} (hrule : rule M U tl = tailRule co) (hred : isReduced tl = true)
    (hco : ∀ k x rest bs, x ≠ [] → GroupEnd M rest → Bd k (.ref tl) x rest bs → Bd k (.ref co) x rest bs) {x : Str}
    {bs : List (Built P)} : ∀ {inc : Str} {k : Nat} {rest : Str}, Blanks inc → inc ≠ [] →
    (∀ rest, GroupEnd M rest → Bd (k + inc.length) (.ref co) x rest bs) →
    Bd k (.ref tl) (openMarks M inc ++ (x ++ closeMarks M inc)) rest
      (inc.map .indent ++ (bs ++ inc.reverse.map .dedent))
  | [], _, _, _, hne, _ => absurd rfl hne
  | [c], k, rest, hw, _, h => by
    have hc := hw c (by simp)
    have := builds_level hrule hred hc (x := x) (rest := rest) (bs := bs) (h _ ⟨_, _, rfl, by split <;> simp⟩)
    exact this
  | c :: d :: inc, k, rest, hw, _, h => by
    have hc := hw c (by simp)
    have hw' : Blanks (d :: inc) := fun c hc => hw c (by simp [hc])
    have ih := builds_group hrule hred hco (x := x) (bs := bs) (inc := d :: inc) (k := k + 1)
      (rest := (if c = ' ' then M.dedentS else M.dedentT) :: rest) hw' (by simp)
      (fun rest hr => by
        have := h rest hr
        simpa [Nat.add_assoc, Nat.add_comm, Nat.add_left_comm] using this)
    have := builds_level hrule hred hc (hco _ _ _ _ (by simp [openMarks]) 
      ⟨_, _, rfl, by split <;> simp⟩ ih)
    refine this.conv ?_ ?_
    · simp [openMarks, closeMarks]
    · simp

/-! Lines of text -/

/-- Rules of lines, groups and blocks of a kind of text. -/
def lineNT : TextKind → NT
  | .verbat => .line_verbat
  | .normal => .line_normal
  | .markup => .line_markup
def tailNT : TextKind → NT
  | .verbat => .tail_verbat
  | .normal => .tail_normal
  | .markup => .tail_markup
def coreNT : TextKind → NT
  | .verbat => .core_verbat
  | .normal => .core_normal
  | .markup => .core_markup
def blockNT : TextKind → NT
  | .verbat => .block_verbat
  | .normal => .block_normal
  | .markup => .block_markup

omit hM in
theorem tailNT_rule (kd : TextKind) : rule M U (tailNT kd) = tailRule (coreNT kd) := by cases kd <;> rfl

omit hM in
theorem textChar_line {c : Char} (h : TextChar M c) : lineChar M [] c = true := by
  obtain ⟨h1, h2, h3, h4, h5⟩ := h
  simp [lineChar, h1, h2, h3, h4, h5]

omit hM in
theorem builds_verbatim {t rest : Str} (hne : t ≠ []) (ht : ∀ c ∈ t, TextChar M c) (hr : Eol M rest) :
    Bd k (.ref .verbatim) t rest [] := by
  refine .ignored (n := .verbatim) rfl (Yields.rx (RE.match?_many1 hne (fun c hc => textChar_line (ht c hc)) ?_))
  exact inClass_false (fun c hc => (hr c hc).notLine)

include hM in
theorem builds_markup {t rest : Str} {es : List Expr} (hne : t ≠ []) (h : Parts M names none t es) (hr : Eol M rest) :
    Bd k (.ref .line_markup) t rest [.line (.markup es)] := by
  obtain ⟨bs, h1, h2, h3⟩ := parts_reads M U P names full h (by intro c hc; cases hc)
  refine .plain ((h3 k rest (hr.partsEnd U)).plus hne) ?_
  simp only [setup, h1]; rfl

theorem reads_line {kd : TextKind} {t rest : Str} {l : Line} (h : TextLine M names kd t l) (hr : Eol M rest) :
    Bd k (.ref (lineNT kd)) t rest [.line l] ∧ t ≠ [] := by
  cases h with
  | verbat hne ht =>
    exact ⟨.plain (n := .line_verbat) (bs := []) (.ofSeq (.step (builds_verbatim hne ht hr) (.step (.lit _ _) (.nil _)))) rfl, hne⟩
  | normal hne hp =>
    exact ⟨.plain (n := .line_normal) (bs := [.line (.markup _)]) (.ofSeq (.step (builds_markup hne hp hr) (.step (.lit _ _) (.nil _)))) rfl, hne⟩
  | markup hne hp => exact ⟨builds_markup hne hp hr, hne⟩

theorem no_line {kd : TextKind} {rest : Str} (hr : Eol M rest) : Fl (.ref (lineNT kd)) rest := by
  have hm : Fl (.ref .line_markup) rest := .ref (.plus (parts_stop (q := none) (hr.partsEnd U)))
  cases kd with
  | verbat =>
    refine .ref (.seq1 (.ref (.rx (RE.match?_seq_none ?_))))
    cases rest with
    | nil => rfl
    | cons c s => simp [RE.match?, RE.rests, (hr c rfl).notLine]
  | normal => exact .ref (.seq1 hm)
  | markup => exact hm

theorem reads_first {kd : TextKind} {t rest : Str} {ls : List Line} (h : FirstLine M names kd t ls) (hr : Eol M rest) :
    Bd k (.opt (.ref (lineNT kd))) t rest (ls.map .line) := by
  cases h with
  | none => exact .opt_none (no_line hr)
  | some h => exact .opt_some (reads_line h hr).1

/-- Nodes of the children of a text block. -/
def itemB : TextItem → Built P
  | .line l => .line l
  | .margin s => .str .margin s
  | .indent c => .indent c
  | .dedent c => .dedent c

omit hM in
theorem asItems_itemB : ∀ xs : List TextItem, asItems (P := P) (xs.map itemB) = .ok xs
  | [] => rfl
  | x :: xs => by
    have := asItems_itemB xs
    cases x <;> simp only [List.map_cons, itemB, asItems, this] <;> rfl

omit hM in
theorem itemB_noQual (xs : List TextItem) : NoQual (P := P) (xs.map itemB) := by
  intro q h
  obtain ⟨x, _, hx⟩ := List.mem_map.1 h
  cases x <;> cases hx

theorem builds_margin {m : Nat} {t rest : Str} (ht : t.head? ≠ some '\n') (hne : t ≠ []) :
    Bd k (.ref .margin) ('\n' :: List.replicate m '\n') (t ++ rest) [.str .margin ('\n' :: List.replicate m '\n')] := by
  refine .plain (n := .margin) (bs := []) ?_ rfl
  refine .ofSeq (.step (x := '\n' :: List.replicate m '\n') (y := []) (r := t ++ rest) (.ignored (n := .nl) rfl (Yields.rx ?_)) (.step (.lit _ _) (.nil _)))
  refine RE.match?_many1 (by simp) ?_ ?_
  · intro c hc
    rw [← List.replicate_succ] at hc
    simp [List.eq_of_mem_replicate hc]
  · cases t with
    | nil => exact absurd rfl hne
    | cons c t => simpa [inClass] using ht

theorem parts_head {t : Str} {es : List Expr} (h : Parts M names none t es) : t.head? ≠ some '\n' := by
  cases h with
  | nil => simp
  | @text _ s v t es hne hs _ _ _ =>
    cases s with
    | nil => exact absurd rfl hne
    | cons c s =>
      have := (hs c (by simp)).2.2.2.1
      simpa using this
  | doubled hc _ => rcases hc with rfl | rfl | rfl <;> simp
  | braces => simp
  | var => simp
  | varTails => simp
  | bracesQual => simp
  | varQual => simp

omit hM in
theorem line_head {kd : TextKind} {t : Str} {l : Line} (h : TextLine M names kd t l) : t.head? ≠ some '\n' := by
  cases h with
  | verbat hne ht =>
    cases t with
    | nil => simp
    | cons c t => simpa using (ht c (by simp)).1
  | normal _ h => exact parts_head h
  | markup _ h => exact parts_head h

/-- One line or one group of a text. -/
def itemPeg (kd : TextKind) : Peg NT := .alt [.ref (tailNT kd), .seq [.ref .margin, .ref (lineNT kd)]]

omit hM in
theorem coreNT_rule (kd : TextKind) : rule M U (coreNT kd) = .plus (itemPeg kd) := by cases kd <;> rfl

theorem GroupEnd.no_item {kd : TextKind} {rest : Str} (h : GroupEnd M rest) : Fl (itemPeg kd) rest := by
  refine .alt (.cons (no_tail (tailNT_rule kd) h.closed) (.cons (.seq1 (.ref (.seq1 (.ref (.rx ?_))))) (.nil _)))
  obtain ⟨c, s, rfl, hc⟩ := h
  have : c ≠ '\n' := mark_nl (M := M) U (by rcases hc with rfl | rfl <;> simp [isMark])
  refine RE.match?_seq_none ?_
  simp [RE.match?, RE.rests, this]

theorem closed_tail {kd : TextKind} (k : Nat) (x rest : Str) (bs : List (Built P)) (hx : x ≠ []) (hr : GroupEnd M rest)
    (h : Bd k (.ref (tailNT kd)) x rest bs) : Bd k (.ref (coreNT kd)) x rest bs := by
  refine .reduced (by cases kd <;> rfl) ?_
  rw [coreNT_rule]
  have := Builds.plus (p := itemPeg kd) (x := x) (y := []) (cs := []) (.alt (.here h)) hx (.nil hr.no_item)
  exact this.conv

omit hM in
theorem items_ne {is : List Item} {kd : TextKind} {xs : List TextItem} (h : TextItems M names kd is xs) (hne : is ≠ []) :
    itemsFlat M is ≠ [] := by
  cases h with
  | nil => exact absurd rfl hne
  | line => simp [itemsFlat, Item.flat]
  | group _ hn => rw [itemsFlat, flat_group]; obtain ⟨c, s, rfl⟩ := List.exists_cons_of_ne_nil hn; simp [openMarks]

omit hM in
/-- What follows after items begins with a newline or a mark. -/
theorem itemsFlat_eol {is : List Item} {rest : Str} (hi : ∀ inc js, Item.group inc js ∈ is → inc ≠ []) (hr : Eol M rest) :
    Eol M (itemsFlat M is ++ rest) := by
  cases is with
  | nil => exact hr
  | cons i is =>
    cases i with
    | line m t => intro c hc; simp [itemsFlat, Item.flat] at hc; exact .inl hc.symm
    | group inc js =>
      rw [itemsFlat, flat_group]
      have := openMarks_eol (M := M) (inc := inc) (x := itemsFlat M js ++ closeMarks M inc) (rest := itemsFlat M is ++ rest)
        (hi inc js (by simp))
      simpa using this

omit hM in
theorem textItems_inc {is : List Item} {kd : TextKind} {xs : List TextItem} (h : TextItems M names kd is xs) :
    ∀ inc js, Item.group inc js ∈ is → inc ≠ [] := by
  induction h with
  | nil => intro _ _ h; cases h
  | line _ _ ih => intro inc js h; simp at h; exact ih inc js h
  | group _ hn _ _ _ _ ih =>
    intro inc js h
    simp only [List.mem_cons, Item.group.injEq] at h
    rcases h with ⟨rfl, rfl⟩ | h
    · exact hn
    · exact ih inc js h

theorem reads_items {kd : TextKind} {is : List Item} {xs : List TextItem} (h : TextItems M names kd is xs) :
    ∀ {k : Nat} {rest : Str}, GroupEnd M rest → Bm k (itemPeg kd) (itemsFlat M is) rest (xs.map itemB) := by
  induction h with
  | nil => intro k rest hr; exact .nil hr.no_item
  | @line m t l is xs hl hi ih =>
    intro k rest hr
    have he : Eol M (itemsFlat M is ++ rest) := itemsFlat_eol (textItems_inc hi) hr.closed.eol
    have hne : t ≠ [] := (reads_line (P := P) (full := full) (k := 0) (U := U) hl he).2
    refine Many.cons (x := '\n' :: (List.replicate m '\n' ++ t)) (y := itemsFlat M is)
      (bs := [.str .margin ('\n' :: List.replicate m '\n'), .line l]) (cs := xs.map itemB) (fun k => ?_) (by simp) (ih hr)
      rfl (by simp [itemsFlat, Item.flat]) (by simp [itemB])
    have hf : Fl (.ref (tailNT kd)) ('\n' :: (List.replicate m '\n' ++ t) ++ (itemsFlat M is ++ rest)) :=
      no_tail (tailNT_rule kd) .nl
    refine .alt (.there hf (.here (.ofSeq (.step (x := '\n' :: List.replicate m '\n') (r := t ++ (itemsFlat M is ++ rest))
      (builds_margin (line_head hl) hne) (.step (y := []) (reads_line hl he).1 (.nil _))))))
  | @group inc js is ys xs hb hn hj h1 h2 ih1 ih2 =>
    intro k rest hr
    refine Many.cons (x := (Item.group inc js).flat M) (y := itemsFlat M is) (bs := (bracket .indent .dedent inc ys).map itemB)
      (cs := xs.map itemB) (fun k => ?_) ?_ (ih2 hr) rfl rfl (by simp)
    · rw [flat_group]
      refine .alt (.here ((builds_group (tailNT_rule kd) (by cases kd <;> rfl) ?_ hb hn
        (bs := ys.map itemB) (x := itemsFlat M js) (fun rest hr => ?_)).conv rfl ?_))
      · exact closed_tail
      · refine .reduced (by cases kd <;> rfl) ?_
        rw [coreNT_rule]
        exact (ih1 hr).plus (items_ne h1 hj)
      · simp only [bracket, List.map_append, List.map_map, List.append_assoc]; rfl
    · rw [flat_group]; obtain ⟨c, s, rfl⟩ := List.exists_cons_of_ne_nil hn; simp [openMarks]

end
end Verif
