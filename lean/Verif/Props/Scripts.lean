import Verif.Lemmas.Neat
import Verif.Props.Parse

/-
Properties of reading of scripts: expressions are grouped by the precedence of operators, whole scripts are
loaded as the statements they denote, conditions of control blocks.
-/

namespace Verif
open Py Spec

/-- The marks that `get_parser` tries first. -/
def defaultMarks : Marks := ⟨'❨', '❩', '❪', '❫'⟩

example : [defaultMarks.indentS.toNat, defaultMarks.dedentS.toNat, defaultMarks.indentT.toNat, defaultMarks.dedentT.toNat] =
    charsDefault := by decide

/-- The default marks can be used with the classes of characters restricted to ASCII; for examples. -/
theorem defaultMarks_apart : MarksApart defaultMarks asciiUni := by
  have key : ∀ c, isMark defaultMarks c = true → c = '❨' ∨ c = '❩' ∨ c = '❪' ∨ c = '❫' := by
    intro c hc
    simpa [isMark, defaultMarks, or_assoc] using hc
  refine ⟨by unfold Marks.Distinct; decide, ?_, fun _ _ => rfl, fun _ _ => rfl, fun _ _ => ⟨rfl, rfl⟩⟩
  intro c hc
  rcases key c hc with rfl | rfl | rfl | rfl <;> decide

/-! ### C76: precedence of operators -/

section
variable {M : Marks} {U : Uni} {P : Type} {names : Str → Option Char}

/-- C76. An assignment of a written expression is loaded as the assignment of that expression, whatever
blanks are around. -/
theorem C76_assignment [MarksApart M U] {n w w1 w2 t : Str} {e : Expr} (hn : Name n) (hw : Blanks w) (hw1 : Blanks w1)
    (hw2 : Blanks w2) (h : Written M names 15 t e) :
    loadScript (P := P) M U names ('$' :: (w ++ (n ++ (w1 ++ ('=' :: (w2 ++ t)))))) =
      .ok [.xblock [] none (.assign (.many [.var n false none none]) none (.root none e))] := by
  have hneat : Neat ('$' :: (w ++ (n ++ (w1 ++ ('=' :: (w2 ++ t)))))) :=
    .cons (by decide) (.append (blanks_nl hw) (.append (neat_name hn).nl (.append (blanks_nl hw1)
      (.cons (by decide) (.append (blanks_nl hw2) (written_neat h))))))
  obtain ⟨hok, htext⟩ := one_line hneat (by decide)
  rw [← htext]
  refine script_loads M U P names (by simp) hok ?_
  have hb : Spec.Block (P := P) M names (0 + 1 + 0) 1 ('$' :: (w ++ (n ++ (w1 ++ ('=' :: (w2 ++ (t ++ []))))))) [] _ :=
    .assign hw (.one (.var hn)) hw1 hw2 (.one h) .none
  rw [List.append_nil] at hb
  exact .cons (is := []) (rest := []) hb .nil

/-- C76. A text is a written form of at most one expression. -/
theorem C76_unambiguous [MarksApart M U] {t : Str} {e e' : Expr} (h : Written M names 15 t e)
    (h' : Written M names 15 t e') : e = e' := by
  have hn : Name (s!!"x") := ⟨⟨'x', [], rfl, by decide, by decide⟩, by decide, by decide⟩
  have hb : Blanks [] := by intro c hc; cases hc
  have h1 := C76_assignment (U := U) (P := Unit) hn hb hb hb h
  have h2 := C76_assignment (U := U) (P := Unit) hn hb hb hb h'
  rw [h1] at h2
  simpa using h2

/-- A written form of a level is one of each looser level. -/
theorem Written.mono {l m : Nat} {t : Str} {e : Expr} (hlm : l ≤ m) (hm : m ≤ 15) (h : Written M names l t e) :
    Written M names m t e := by
  induction hlm with
  | refl => exact h
  | step _ ih => exact .up (ih (by omega)) (by omega)

/-- C76. `x ∘ y • z` with `∘` of a tighter level than `•` is `(x ∘ y) • z`. -/
theorem C76_tighter_first [MarksApart M U] {l m : Nat} {x y z w1 w2 w3 w4 o1 o2 : Str} {ex ey ez : Expr} (hlm : l < m) (hm : m < 15)
    (hx : Written M names l x ex) (hy : Written M names l y ey) (hz : Written M names m z ez)
    (h1 : Sep (l + 1) w1 o1 w2 y) (h2 : Sep (m + 1) w3 o2 w4 z) :
    loadScript (P := P) M U names (s!!"$v=" ++ (x ++ (w1 ++ (o1 ++ (w2 ++ y))) ++ (w3 ++ (o2 ++ (w4 ++ z))))) =
      .ok [.xblock [] none (.assign (.many [.var (s!!"v") false none none]) none
        (.root none (combine (m + 1) (combine (l + 1) ex [o1] [ey]) [o2] [ez])))] := by
  have hn : Name (s!!"v") := ⟨⟨'v', [], rfl, by decide, by decide⟩, by decide, by decide⟩
  have hb : Blanks [] := by intro c hc; cases hc
  have hc : Written M names (l + 1) (x ++ (w1 ++ (o1 ++ (w2 ++ y)))) (combine (l + 1) ex [o1] [ey]) := by
    have := Written.chain hx (.cons h1 (.same _) hy .nil) (by simp)
    rwa [List.append_nil] at this
  have hd : Written M names (m + 1) (x ++ (w1 ++ (o1 ++ (w2 ++ y))) ++ (w3 ++ (o2 ++ (w4 ++ z))))
      (combine (m + 1) (combine (l + 1) ex [o1] [ey]) [o2] [ez]) := by
    have := Written.chain (Written.mono (m := m) (by omega) (by omega) hc) (.cons h2 (.same _) hz .nil) (by simp)
    rwa [List.append_nil] at this
  exact C76_assignment (U := U) (P := P) (w := []) (w1 := []) (w2 := []) hn hb hb hb (Written.mono (by omega) (by omega) hd)

/-- C76. `x • y ∘ z` with `∘` of a tighter level than `•` is `x • (y ∘ z)`. -/
theorem C76_tighter_second [MarksApart M U] {l m : Nat} {x y z w1 w2 w3 w4 o1 o2 : Str} {ex ey ez : Expr} (hlm : l < m) (hm : m < 15)
    (hx : Written M names m x ex) (hy : Written M names l y ey) (hz : Written M names l z ez)
    (h1 : Sep (m + 1) w1 o2 w2 (y ++ (w3 ++ (o1 ++ (w4 ++ z))))) (h2 : Sep (l + 1) w3 o1 w4 z) :
    loadScript (P := P) M U names (s!!"$v=" ++ (x ++ (w1 ++ (o2 ++ (w2 ++ (y ++ (w3 ++ (o1 ++ (w4 ++ z))))))))) =
      .ok [.xblock [] none (.assign (.many [.var (s!!"v") false none none]) none
        (.root none (combine (m + 1) ex [o2] [combine (l + 1) ey [o1] [ez]])))] := by
  have hn : Name (s!!"v") := ⟨⟨'v', [], rfl, by decide, by decide⟩, by decide, by decide⟩
  have hb : Blanks [] := by intro c hc; cases hc
  have hc : Written M names (l + 1) (y ++ (w3 ++ (o1 ++ (w4 ++ z)))) (combine (l + 1) ey [o1] [ez]) := by
    have := Written.chain hy (.cons h2 (.same _) hz .nil) (by simp)
    rwa [List.append_nil] at this
  have hd : Written M names (m + 1) (x ++ (w1 ++ (o2 ++ (w2 ++ (y ++ (w3 ++ (o1 ++ (w4 ++ z))))))))
      (combine (m + 1) ex [o2] [combine (l + 1) ey [o1] [ez]]) := by
    have := Written.chain hx (.cons h1 (.same _) (Written.mono (m := m) (by omega) (by omega) hc) .nil) (by simp)
    rwa [List.append_nil] at this
  exact C76_assignment (U := U) (P := P) (w := []) (w1 := []) (w2 := []) hn hb hb hb (Written.mono (by omega) (by omega) hd)

/-- C76. Operators of the same level form one chain, in the order of writing. -/
theorem C76_same_level [MarksApart M U] {l : Nat} {x t : Str} {ex : Expr} {os : List Str} {es : List Expr} (hl : l < 15)
    (hx : Written M names l x ex) (h : Spec.Chain M names (l + 1) t os es) (hne : os ≠ []) :
    loadScript (P := P) M U names (s!!"$v=" ++ (x ++ t)) =
      .ok [.xblock [] none (.assign (.many [.var (s!!"v") false none none]) none (.root none (combine (l + 1) ex os es)))] := by
  have hn : Name (s!!"v") := ⟨⟨'v', [], rfl, by decide, by decide⟩, by decide, by decide⟩
  have hb : Blanks [] := by intro c hc; cases hc
  exact C76_assignment (U := U) (P := P) (w := []) (w1 := []) (w2 := []) hn hb hb hb
    (Written.mono (by omega) (by omega) (Written.chain hx h hne))

/-- C76. Parentheses override the precedence: whatever is inside of them becomes one operand. -/
theorem C76_parentheses {t : Str} {e : Expr} (h : Written M names 15 t e) :
    Written M names 0 ('(' :: (t ++ [')'])) (.root none e) := by
  have := Written.paren (M := M) (names := names) (w := []) (w' := []) (by intro c hc; cases hc) h (by intro c hc; cases hc)
  simpa using this

end

section
attribute [local instance] defaultMarks_apart

theorem exName (c : Char) (h : nameStart c = true ∧ c.toNat < 128) : Name [c] := by
  refine ⟨⟨c, [], rfl, h.1, h.2⟩, ?_, ?_⟩
  · intro d hd
    rw [List.mem_singleton.mp hd]
    have := h.1
    simp only [nameStart, nameChar, Bool.or_eq_true] at this ⊢
    rcases this with h | h <;> simp [h]
  · have : ∀ r ∈ reservedNames, r.length ≠ 1 := by decide
    intro hm
    exact this _ hm rfl

theorem exVar (c : Char) (h : nameStart c = true ∧ c.toNat < 128) : Written defaultMarks (fun _ => none) 0 [c] (.varUse [c] none) := by
  refine .var { exName c h with notLiteral := ⟨?_, ?_, ?_⟩ } <;> exact fun h => absurd h.length_le (by simp)

/-- `$v=a + b*c` is `v = a + (b*c)`. -/
example : loadScript (P := Unit) defaultMarks asciiUni (fun _ => none) (s!!"$v=a + b*c") =
    .ok [.xblock [] none (.assign (.many [.var (s!!"v") false none none]) none
      (.root none (.chain false (.varUse (s!!"a") none) [s!!"+"]
        [.chain false (.varUse (s!!"b") none) [s!!"*"] [.varUse (s!!"c") none]])))] := by
  have h := C76_tighter_second (P := Unit) (U := asciiUni) (l := 2) (m := 3) (x := s!!"a") (y := s!!"b") (z := s!!"c")
    (w1 := [' ']) (w2 := [' ']) (w3 := []) (w4 := []) (o1 := s!!"*") (o2 := s!!"+") (by omega) (by omega)
    (Written.mono (by omega) (by omega) (exVar 'a' (by decide))) (Written.mono (by omega) (by omega) (exVar 'b' (by decide)))
    (Written.mono (by omega) (by omega) (exVar 'c' (by decide)))
    ⟨by decide, by unfold Blanks; decide, by unfold Blanks; decide, by decide, by decide, by decide, by decide⟩
    ⟨by decide, by unfold Blanks; decide, by unfold Blanks; decide, by decide, by decide, by decide, by decide⟩
  simpa [combine] using h

/-- `$v=a < b : f` is `v = a < (b : f)`: a filter binds tighter than a comparison. -/
example : Written defaultMarks (fun _ => none) 15 (s!!"a < b:f")
    (.chain false (.varUse (s!!"a") none) [s!!"<"] [.pipeline (.varUse (s!!"b") none) [.factor (.varUse (s!!"f") none) [] none]]) := by
  have hp : Written defaultMarks (fun _ => none) 9 (s!!"b" ++ ([] ++ (':' :: ([] ++ (s!!"f" ++ [])))))
      (.pipeline (.varUse (s!!"b") none) [.factor (.varUse (s!!"f") none) [] none]) :=
    .pipeline (Written.mono (by omega) (by omega) (exVar 'b' (by decide)))
      (.plain (by intro c hc; cases hc) (by intro c hc; cases hc) (.atom (exVar 'f' (by decide))) .nil) (by simp)
  have h := Written.chain (l := 10) (Written.mono (by omega) (by omega) (exVar 'a' (by decide)))
    (.cons (w1 := [' ']) (op := s!!"<") (w2 := [' '])
      ⟨by decide, by unfold Blanks; decide, by unfold Blanks; decide, by decide, by decide, by decide, by decide⟩
      (.same _) (Written.mono (m := 10) (by omega) (by omega) hp) .nil) (by simp)
  exact Written.mono (by omega) (by omega) h

/-- `$v=a not   in r'\n'`: any blanks between the words of an operator, and a raw string. -/
example : loadScript (P := Unit) defaultMarks asciiUni (fun _ => none) (s!!"$v=a not   in r'\\n'") =
    .ok [.xblock [] none (.assign (.many [.var (s!!"v") false none none]) none
      (.root none (.chain false (.varUse (s!!"a") none) [s!!"not in"] [.strLit (s!!"\\n")])))] := by
  have h := C76_same_level (P := Unit) (U := asciiUni) (l := 10) (by omega) (Written.mono (by omega) (by omega) (exVar 'a' (by decide)))
    (.cons (w1 := [' ']) (w2 := [' '])
      ⟨by decide, by unfold Blanks; decide, by unfold Blanks; decide, by decide, by decide, by decide, by decide⟩
      (.notIn (w := s!!"   ") (by unfold Blanks; decide) (by decide))
      (Written.mono (by omega) (by omega) (.raw (q := '\'') (t := s!!"\\n") (.inl rfl) (by decide) (by decide))) .nil) (by simp)
  simpa [combine] using h

/-- `1.5e-7` -/
example : IsNumber (s!!"1.5e-7") :=
  ⟨s!!"1.5", s!!"e-7", ⟨s!!"1", by decide, by decide, .inr ⟨s!!"5", by decide, rfl⟩⟩,
    .inr ⟨'e', ['-'], ['7'], .inl rfl, .inr (.inr rfl), by decide, by decide, rfl⟩, rfl⟩

end

/-! ### C77: whole scripts -/

/-- C77. A written script, of any size and nesting, is loaded as exactly the statements it denotes. -/
theorem C77_script (M : Marks) (U : Uni) [MarksApart M U] (P : Type) (names : Str → Option Char) {items : List Item}
    {ss : List (Stmt P)} (hne : items ≠ []) (hok : ItemsOk items) (h : Spec.Blocks M names 0 items ss) :
    loadScript M U names (itemText items) = .ok ss :=
  script_loads M U P names hne hok h

/-- C77. A script denotes one list of statements only. -/
theorem C77_unambiguous (M : Marks) (U : Uni) [MarksApart M U] (P : Type) (names : Str → Option Char) {items items' : List Item}
    {ss ss' : List (Stmt P)} (hne : items ≠ []) (hok : ItemsOk items) (h : Spec.Blocks M names 0 items ss)
    (hne' : items' ≠ []) (hok' : ItemsOk items') (h' : Spec.Blocks M names 0 items' ss')
    (he : itemText items = itemText items') : ss = ss' := by
  have h1 := C77_script M U P names hne hok h
  have h2 := C77_script M U P names hne' hok' h'
  rw [he, h2] at h1
  simpa using h1.symm

section
attribute [local instance] defaultMarks_apart

/-- Checks of the examples below. -/
def nameOk (n : Str) : Bool :=
  (match n with
    | [] => false
    | c :: _ => nameStart c && decide (c.toNat < 128)) && n.all nameChar && !reservedNames.elem n

theorem nameOk_name {n : Str} (h : nameOk n = true) : Name n := by
  unfold nameOk at h
  simp only [Bool.and_eq_true, List.all_eq_true, Bool.not_eq_true', List.elem_eq_mem, decide_eq_false_iff_not] at h
  obtain ⟨⟨h1, h2⟩, h3⟩ := h
  refine ⟨?_, h2, h3⟩
  cases n with
  | nil => cases h1
  | cons c s => simp only [Bool.and_eq_true, decide_eq_true_eq] at h1; exact ⟨c, s, rfl, h1.1, h1.2⟩

theorem exTagName {n : Str} (h : nameOk n = true ∧ ¬ s!!"try" <+: n ∧ ¬ s!!"else" <+: n ∧ n ≠ s!!"context") : TagName n :=
  { nameOk_name h.1 with notTry := h.2.1, notElse := h.2.2.1, notContext := h.2.2.2 }

theorem exBlanks {w : Str} (h : w.all (fun c => c == ' ' || c == '\t') = true) : Blanks w := by
  simpa [Blanks, List.all_eq_true] using h

/-- The script

    $ n = 3
    div .box id='main' : p

        | Hello $n
        if n > 1:
          b | many
        else
          pass
-/
def exScript : List Item :=
  [.line 0 (s!!"$ n = 3"), .line 0 (s!!"div .box id='main' : p"),
    .group (s!!"    ") [.line 1 (s!!"| Hello $n"), .line 0 (s!!"if n > 1:"), .group (s!!"  ") [.line 0 (s!!"b | many")],
      .line 0 (s!!"else"), .group (s!!"  ") [.line 0 (s!!"pass")]]]

/-- Its statements. -/
def exStmts : List (Stmt Unit) :=
  [.xblock [] none (.assign (.many [.var (s!!"n") false none none]) none (.root none (.number (s!!"3")))),
    .xblock [] none (.struct
      [.tag (s!!"div") none [] [(s!!"class", .strLit (s!!"box")), (s!!"id", .root none (.format [.static (s!!"main")]))],
        .tag (s!!"p") none [] []]
      (.body (bracket .indent .dedent (s!!"    ")
        [.xblock ['\n'] none (.text 1 [.line (.normal [.static (s!!" Hello "), .root none (.varUse (s!!"n") none)])]),
          .xblock [] none (.ifBlock
            [(.root none (.chain false (.varUse (s!!"n") none) [s!!">"] [.number (s!!"1")]),
              some (.body (bracket .indent .dedent (s!!"  ")
                [.xblock [] none (.struct [.tag (s!!"b") none [] []] (.text 3 [.line (.normal [.static (s!!" many")])]))])))]
            (some (.elseClause (some (.body (bracket .indent .dedent (s!!"  ") [.xblock [] none .pass]))))))])))]

theorem exScript_denotes : Spec.Blocks defaultMarks (fun _ => none) 0 exScript exStmts := by
  have b0 : Blanks [] := exBlanks rfl
  have b1 : Blanks [' '] := exBlanks rfl
  have b2 : Blanks [' ', ' '] := exBlanks rfl
  have b4 : Blanks [' ', ' ', ' ', ' '] := exBlanks rfl
  have hn := nameOk_name (n := s!!"n") (by decide)
  have vn : Written defaultMarks (fun _ => none) 0 (s!!"n") (.varUse (s!!"n") none) :=
    .var { hn with notLiteral := by decide }
  have n1 : Written defaultMarks (fun _ => none) 0 (s!!"1") (.number (s!!"1")) :=
    .number ⟨s!!"1", [], ⟨s!!"1", by decide, by decide, .inl rfl⟩, .inl rfl, rfl⟩
  have n3 : Written defaultMarks (fun _ => none) 0 (s!!"3") (.number (s!!"3")) :=
    .number ⟨s!!"3", [], ⟨s!!"3", by decide, by decide, .inl rfl⟩, .inl rfl, rfl⟩
  have cmp : Written defaultMarks (fun _ => none) 11 (s!!"n > 1") (.chain false (.varUse (s!!"n") none) [s!!">"] [.number (s!!"1")]) :=
    .chain (t := s!!"n") (Written.mono (by omega) (by omega) vn) (.cons (w1 := [' ']) (op := s!!">") (w2 := [' ']) (t := s!!"1")
      ⟨by decide, b1, b1, by decide, by decide, by decide, by decide⟩ (.same _) (Written.mono (by omega) (by omega) n1) .nil) (by simp)
  have many : Parts defaultMarks (fun _ => none) none (s!!" many") [.static (s!!" many")] :=
    .text (s := s!!" many") (t := []) (by simp) (by unfold plainChar; decide) rfl .nil (by simp)
  have hello : Parts defaultMarks (fun _ => none) none (s!!" Hello $n") [.static (s!!" Hello "), .root none (.varUse (s!!"n") none)] :=
    .text (s := s!!" Hello ") (t := s!!"$n") (by simp) (by unfold plainChar; decide) rfl
      (.var (n := s!!"n") (t := []) hn .nil (by simp)) (by simp)
  have main : Parts defaultMarks (fun _ => none) (some '\'') (s!!"main") [.static (s!!"main")] :=
    .text (s := s!!"main") (t := []) (by simp) (by unfold plainChar; decide) rfl .nil (by simp)
  have vmain : Spec.Value defaultMarks (fun _ => none) (s!!"'main'") (.root none (.format [.static (s!!"main")])) :=
    .factor (.up (.string (.inl rfl) main) (by omega)) (by decide) (by decide)
  have tb : Spec.Tag defaultMarks (fun _ => none) (s!!"b") (.tag (s!!"b") none [] []) true :=
    .tag (n := s!!"b") (t := []) (t' := []) (exTagName (by decide)) .nil .nil rfl
  have tp : Spec.Tag defaultMarks (fun _ => none) (s!!"p") (.tag (s!!"p") none [] []) true :=
    .tag (n := s!!"p") (t := []) (t' := []) (exTagName (by decide)) .nil .nil rfl
  have tdiv : Spec.Tag defaultMarks (fun _ => none) (s!!"div .box id='main'")
      (.tag (s!!"div") none [] [(s!!"class", .strLit (s!!"box")), (s!!"id", .root none (.format [.static (s!!"main")]))]) true :=
    .tag (n := s!!"div") (t := []) (t' := s!!" .box id='main'") (exTagName (by decide)) .nil
      (.shorts (w := [' ']) (t := s!!".box") (t' := s!!" id='main'") b1 (by simp)
        (.cons (n := s!!"box") (t := []) (.inl rfl) ⟨by decide, by decide⟩ .nil) (by simp)
        (by rintro c s h; simp only [List.cons.injEq] at h; rw [← h.2.1]; decide)
        (.last (w := [' ']) (t := s!!"id='main'") b1 (by simp)
          (.named (n := s!!"id") (w1 := []) (w2 := []) ⟨⟨'i', ['d'], rfl, by decide⟩, by decide, by decide⟩ b0 b0 vmain))) rfl
  refine .cons (is := []) (m := 0) ?_ (.cons (is := [.group (s!!"    ") _]) (rest := []) (m := 0) ?_ .nil)
  · exact .assign (w := [' ']) (t := s!!"n") (w1 := [' ']) (w2 := [' ']) (x := s!!"3") (r := []) b1 (.one (.var hn)) b1 b1
      (.one (Written.mono (by omega) (by omega) n3)) .none
  refine .struct (.tags (t := s!!"div .box id='main' : p") (t' := [])
    (.cons (t := s!!"div .box id='main'") (w1 := [' ']) (w2 := [' ']) tdiv b1 b1 (by simp) (.one tp)) (by simp) (by simp)
    (.plain (.group b4 (by simp) (by simp) ?_)))
  refine .cons (is := []) (m := 1) ?_ (.cons (m := 0) (rest := [])
    (is := [.group (s!!"  ") [.line 0 (s!!"b | many")], .line 0 (s!!"else"), .group (s!!"  ") [.line 0 (s!!"pass")]]) ?_ .nil)
  · exact .struct (.text (.text (kd := .normal) (.some (.normal (by simp) hello)) .none))
  refine .ifBlock (t := s!!" n > 1:") (is := [.group (s!!"  ") [.line 0 (s!!"b | many")]]) (js := [])
    (ls := [.line 0 (s!!"else"), .group (s!!"  ") [.line 0 (s!!"pass")]]) ?_ .nil (.some (.body (t := []) ?_))
  · refine .compound (w := [' ']) (t := s!!"n > 1") (t' := s!!":") b1 (by simp) (Written.mono (by omega) (by omega) cmp)
      (.operator (t := s!!"n") (w := [' ']) (c := '>') (t' := s!!" 1") (Written.mono (by omega) (by omega) vn) b1
        (by decide) (by decide) (by decide))
      (.colon (w := []) (r := []) b0 .none (.group b2 (by simp) (by simp) ?_))
    refine .cons (is := []) (rest := []) (m := 0) ?_ .nil
    exact .struct (.tags (t := s!!"b") (t' := s!!" | many") (.one tb) (by decide) (by decide)
      (.text (w := [' ']) (t := s!!"| many") b1 (.text (kd := .normal) (.some (.normal (by simp) many)) .none)))
  · exact .body (.plain .none (.group b2 (by simp) (by simp) (.cons (is := []) (rest := []) (m := 0) .pass .nil)) (by simp))

/-- Loading of the example. -/
example : loadScript defaultMarks asciiUni (fun _ => none)
    (s!!"$ n = 3\ndiv .box id='main' : p\n\n    | Hello $n\n    if n > 1:\n      b | many\n    else\n      pass") = .ok exStmts :=
  C77_script _ _ _ _ (items := exScript) (by simp [exScript]) (by
    have : ∀ t, TrimmedLine t ↔ (t ≠ [] ∧ strip t = t ∧ '\n' ∉ t) := fun t =>
      ⟨fun h => ⟨h.1, h.2, h.3⟩, fun h => ⟨h.1, h.2.1, h.2.2⟩⟩
    simp [exScript, ItemsOk, Item.Ok, this, Item.isGroup]
    decide) exScript_denotes

end

/-! ### C78: conditions -/

section
variable {M : Marks} {U : Uni} {P : Type} {names : Str → Option Char}

/-- The script `if <t>:` with the body `js` below, indented by `inc`. -/
def ifScript (kw t inc : Str) (js : List Item) : List Item := [.line 0 (kw ++ ' ' :: (t ++ [':'])), .group inc js]

/-- The condition of `if` is not taken for its first operand. -/
def PlainCondition (M : Marks) (names : Str → Option Char) (t : Str) (e : Expr) : Prop :=
  Compound M names t ∨ Written M names 1 t e

theorem clause_condition {k c : Nat} {t inc : Str} {e : Expr} {js : List Item} {ss : List (Stmt P)}
    (h : Written M names 15 t e) (hp : PlainCondition M names t e) (hinc : Blanks inc) (hne : inc ≠ []) (hjs : js ≠ [])
    (hb : Spec.Blocks M names (k + 1 + t.length + 1 + inc.length) js ss) :
    Clause M names k c (' ' :: (t ++ [':'])) [.group inc js] (.root none e) (some (.body (bracket .indent .dedent inc ss))) := by
  have b0 : Blanks [] := exBlanks rfl
  have b1 : Blanks [' '] := exBlanks rfl
  have hbody : BlockBody (P := P) M names (k + [' '].length + t.length) [':'] [.group inc js] (.body (bracket .indent .dedent inc ss)) :=
    .colon (w := []) (r := []) b0 .none (.group hinc hne hjs hb)
  rcases hp with hp | hp
  · exact .compound (w := [' ']) (t := t) (t' := [':']) b1 (by simp) h hp hbody
  · exact .factor (w := [' ']) (t := t) (t' := [':']) b1 (by simp) hp (by simp) (.body hbody)

theorem ifScript_ok {kw t inc : Str} {js : List Item} {c : Char} {s : Str} (hkw : kw = c :: s) (hc : isSpace c = false)
    (hs : '\n' ∉ kw) (ht : '\n' ∉ t) (hinc : Blanks inc) (hne : inc ≠ []) (hjs : js ≠ []) (hok : ItemsOk js) :
    ItemsOk (ifScript kw t inc js) := by
  have h1 : Neat (kw ++ ' ' :: (t ++ [':'])) :=
    .append hs (.cons (by decide) (.snoc ht (by decide)))
  subst hkw
  exact ⟨h1.line hc, ⟨⟨hne, hinc, hjs, hok⟩, trivial, by simp⟩, by simp [Item.isGroup]⟩

/-- C78, what holds. The condition of an `if` block is the whole expression between the keyword and the
colon, if the expression begins with `-` or `not`, if its first operand is followed by one of the operators
that cannot begin a text (`+`, `-`, `*`, `%`, `<`, `>`, `=`, `&`, `^` or a word), or if it is one operand. What is
missing is shown by `C78_not_in_general`: operators `|`, `/`, `!=` and filters after the first operand. -/
theorem C78_if_partial [MarksApart M U] {t inc : Str} {e : Expr} {js : List Item} {ss : List (Stmt P)}
    (h : Written M names 15 t e) (hp : PlainCondition M names t e) (hinc : Blanks inc) (hne : inc ≠ []) (hjs : js ≠ [])
    (hok : ItemsOk js) (hb : Spec.Blocks M names (5 + t.length + inc.length) js ss) :
    loadScript M U names (itemText (ifScript (s!!"if") t inc js)) =
      .ok [.xblock [] none (.ifBlock [(.root none e, some (.body (bracket .indent .dedent inc ss)))] none)] := by
  refine script_loads M U P names (by simp [ifScript]) (ifScript_ok rfl (by decide) (by decide) (written_neat h).nl hinc hne hjs hok) ?_
  refine .cons (is := [.group inc js]) (rest := []) (m := 0) ?_ .nil
  refine .ifBlock (is := [.group inc js]) (js := []) (ls := []) (clause_condition h hp hinc hne hjs ?_) .nil .none
  have : 0 + 1 + 0 + 2 + 1 + t.length + 1 + inc.length = 5 + t.length + inc.length := by omega
  rwa [this]

/-- C78 for `while`, with the same reservation. -/
theorem C78_while_partial [MarksApart M U] {t inc : Str} {e : Expr} {js : List Item} {ss : List (Stmt P)}
    (h : Written M names 15 t e) (hp : PlainCondition M names t e) (hinc : Blanks inc) (hne : inc ≠ []) (hjs : js ≠ [])
    (hok : ItemsOk js) (hb : Spec.Blocks M names (8 + t.length + inc.length) js ss) :
    loadScript M U names (itemText (ifScript (s!!"while") t inc js)) =
      .ok [.xblock [] none (.whileBlock (.root none e) (some (.body (bracket .indent .dedent inc ss))) none)] := by
  refine script_loads M U P names (by simp [ifScript]) (ifScript_ok rfl (by decide) (by decide) (written_neat h).nl hinc hne hjs hok) ?_
  refine .cons (is := [.group inc js]) (rest := []) (m := 0) ?_ .nil
  refine .whileBlock (is := [.group inc js]) (ls := []) (clause_condition h hp hinc hne hjs ?_) .none
  have : 0 + 1 + 0 + 5 + 1 + t.length + 1 + inc.length = 8 + t.length + inc.length := by omega
  rwa [this]

theorem textChar_low (U : Uni) [hM : MarksApart M U] {c : Char} (hn : c ≠ '\n') (hc : c.toNat < 0x2768) : TextChar M c := by
  have h := hM.high c
  refine ⟨hn, ?_, ?_, ?_, ?_⟩ <;> rintro rfl <;> exact absurd (h (by simp [isMark])) (by omega)

/-- C78, what goes wrong: after the first operand of a condition, `!` begins a verbatim text. The block
`if x != y:` is the block `if x` with the text `= y:`. -/
theorem C78_first_operand [MarksApart M U] {x y inc : Str} {e : Expr} {js : List Item} {xs : List TextItem}
    (h : Written M names 1 x e) (hy : ∀ c ∈ y, TextChar M c) (hinc : Blanks inc) (hne : inc ≠ []) (hjs : js ≠ [])
    (hok : ItemsOk js) (hb : TextItems M names .verbat js xs) :
    loadScript (P := P) M U names (itemText (ifScript (s!!"if") (x ++ (s!!" !=" ++ y)) inc js)) =
      .ok [.xblock [] none (.ifBlock [(.root none e,
        some (.text (5 + x.length) (.line (.verbat ('=' :: (y ++ [':']))) :: bracket .indent .dedent inc xs)))] none)] := by
  have b1 : Blanks [' '] := exBlanks rfl
  have hnl : '\n' ∉ x ++ (s!!" !=" ++ y) := by
    have h1 := (written_neat h).nl
    have h2 : '\n' ∉ y := fun hc => (hy _ hc).1 rfl
    simp [h1, h2]
  refine script_loads M U P names (by simp [ifScript]) (ifScript_ok rfl (by decide) (by decide) hnl hinc hne hjs hok) ?_
  refine .cons (is := [.group inc js]) (rest := []) (m := 0) ?_ .nil
  refine .ifBlock (is := [.group inc js]) (js := []) (ls := []) ?_ .nil .none
  have e1 : ' ' :: (x ++ (s!!" !=" ++ y) ++ [':']) = [' '] ++ (x ++ ([' '] ++ ('!' :: ('=' :: (y ++ [':']))))) := by simp
  rw [e1]
  have e2 : 5 + x.length = 1 + 2 + [' '].length + x.length + [' '].length := by simp; omega
  rw [e2]
  refine .factor (w := [' ']) b1 (by simp) h (by simp) (.text (w := [' ']) b1 ?_)
  refine .text (kd := .verbat) (ls := [.verbat ('=' :: (y ++ [':']))]) (.some (.verbat (by simp) ?_)) (.group hinc hne hjs hb)
  intro c hc
  simp only [List.mem_cons, List.mem_append, List.not_mem_nil, or_false] at hc
  rcases hc with rfl | hc | rfl
  · exact textChar_low U (by decide) (by decide)
  · exact hy _ hc
  · exact textChar_low U (by decide) (by decide)

end

section
attribute [local instance] defaultMarks_apart

/-- C78 is false in general: the condition of `if a != b:` is not the expression `a != b`. -/
theorem C78_not_in_general : ∃ (t : Str) (e : Expr), Written defaultMarks (fun _ => none) 15 t e ∧
    ∀ b, loadScript (P := Unit) defaultMarks asciiUni (fun _ => none) (itemText (ifScript (s!!"if") t (s!!"  ") [.line 0 (s!!"p")])) ≠
      .ok [.xblock [] none (.ifBlock [(.root none e, b)] none)] := by
  have b1 : Blanks [' '] := exBlanks rfl
  refine ⟨s!!"a != b", .chain false (.varUse (s!!"a") none) [s!!"!="] [.varUse (s!!"b") none], ?_, ?_⟩
  · have h := Written.chain (l := 10) (Written.mono (by omega) (by omega) (exVar 'a' (by decide)))
      (.cons (w1 := [' ']) (op := s!!"!=") (w2 := [' '])
        ⟨by decide, b1, b1, by decide, by decide, by decide, by decide⟩
        (.same _) (Written.mono (m := 10) (by omega) (by omega) (exVar 'b' (by decide))) .nil) (by simp)
    exact Written.mono (by omega) (by omega) h
  · intro b h
    have h1 := C78_first_operand (P := Unit) (U := asciiUni) (M := defaultMarks) (names := fun _ => none) (x := s!!"a") (y := s!!" b")
      (inc := s!!"  ") (js := [.line 0 (s!!"p")]) (xs := [.margin (s!!"\n"), .line (.verbat (s!!"p"))])
      (Written.mono (by omega) (by omega) (exVar 'a' (by decide))) (by unfold TextChar; decide)
      (exBlanks rfl) (by simp) (by simp)
      ⟨⟨by decide, by decide, by decide⟩, trivial, by simp⟩
      (.line (m := 0) (.verbat (by simp) (by unfold TextChar; decide)) .nil)
    simp only [List.cons_append, List.nil_append] at h1
    rw [h1] at h
    simp at h

/-- A block for which the claim holds. -/
example : PlainCondition defaultMarks (fun _ => none) (s!!"a > b") (.chain false (.varUse (s!!"a") none) [s!!">"] [.varUse (s!!"b") none]) :=
  .inl (.operator (t := s!!"a") (w := [' ']) (c := '>') (t' := s!!" b") (Written.mono (by omega) (by omega) (exVar 'a' (by decide)))
    (exBlanks rfl) (by decide) (by decide) (by decide))

end
end Verif
