import Verif.Lemmas.Opens

/-! What may follow an expression of a given level. -/

namespace Verif
open Py Spec

/-- Continuations of an expression by an operator of a level: `true` if blanks are necessary before it. -/
def conts : Nat → List (Bool × List (Peg NT))
  | 1 => [(false, [.ref .trailer])]
  | 2 => [(false, [.ref .op_power, .ref .ws, .ref .factor])]
  | 3 => [(false, [.ref .op_multiplic, .ref .ws, .ref .pow_expr])]
  | 4 => [(false, [.ref .op_additive, .ref .ws, .ref .term])]
  | 5 => [(false, [.ref .op_shift, .ref .ws, .ref .arith_expr])]
  | 6 => [(false, [.lit (s!!"&"), .ref .ws, .ref .shift_expr])]
  | 7 => [(false, [.lit (s!!"^"), .ref .ws, .ref .and_expr])]
  | 8 => [(false, [.lit (s!!"|"), .ref .ws, .ref .xor_expr])]
  | 9 => [(false, [.lit (s!!":"), .ref .ws, .ref .filter])]
  | 10 => [(true, [.ref .pipeline])]
  | 11 => [(false, [.ref .op_comp, .ref .ws, .ref .concat_expr])]
  | 13 => [(true, [.lit (s!!"and"), .ref .space, .ref .not_test])]
  | 14 => [(true, [.lit (s!!"or"), .ref .space, .ref .and_test])]
  | 15 => [(true, [.lit (s!!"if"), .ref .space, .ref .or_test,
        .opt (.seq [.ref .space, .lit (s!!"else"), .ref .space, .ref .ifelse_test])]),
      (true, [.lit (s!!"else"), .ref .space, .ref .ifelse_test])]
  | _ => []

section
variable {M : Marks} {U : Uni}

/-- A character that ends names, numbers and strings, and is neither a qualifier nor a trailer. -/
def endChar (U : Uni) (c : Char) : Bool :=
  !nameChar c && !reDigit U c && !(s!!"'\"?!(.[").elem c

/-- An expression of level `l` ends before `rest`. -/
structure After (M : Marks) (U : Uni) (l : Nat) (rest : Str) : Prop where
  ends : ∀ c, rest.head? = some c → endChar U c = true
  stops : ∀ n ≤ l, ∀ x ∈ conts n, Fails (rule M U) (.seq (.ref (if x.1 then .space else .ws) :: x.2)) rest

theorem After.mono {l l' : Nat} {rest : Str} (h : After M U l rest) (hl : l' ≤ l) : After M U l' rest :=
  ⟨h.ends, fun n hn => h.stops n (by omega)⟩

theorem After.intro {l : Nat} {w s : Str} (hw : Blanks w) (hs : NoBlank s)
    (he : w = [] → ∀ c, s.head? = some c → endChar U c = true)
    (h : ∀ n ≤ l, ∀ x ∈ conts n, (x.1 = true ∧ w = []) ∨ FailsSeq (rule M U) x.2 s) :
    After M U l (w ++ s) := by
  refine ⟨?_, ?_⟩
  · intro c hc
    cases w with
    | nil => exact he rfl c hc
    | cons a w =>
      simp only [List.cons_append, List.head?_cons, Option.some.injEq] at hc
      rcases hw a (by simp) with h | h <;> rw [← hc, h] <;> rfl
  · intro n hn x hx
    rcases h n hn x hx with ⟨h1, h2⟩ | h1
    · subst h2
      rw [h1]
      exact .seq (.head (.space hs))
    · cases hx1 : x.1 with
      | false => exact .seq (.after (.ws hw hs) h1)
      | true =>
        by_cases hne : w = []
        · subst hne
          exact .seq (.head (.space hs))
        · exact .seq (.after (.space hw hne hs) h1)

theorem FailsSeq.first {ps : List (Peg NT)} {s : Str} (k : Nat)
    (h : Peg.nopeSeq (rule M U) k ps s.head? = true) : FailsSeq (rule M U) ps s := by
  rcases (rule_noLeftRec M U).total (.seq ps) s with ⟨t, rest, f, h'⟩ | ⟨f, h'⟩
  · cases f with
    | zero => simp [run] at h'
    | succ f =>
      simp only [run] at h'
      cases hr : runSeq (rule M U) f ps s with
      | ok ts r => exact absurd hr ((nope_run _ k f).2.1 _ _ _ _ h)
      | fail => exact ⟨f, hr⟩
      | timeout => rw [hr] at h'; cases h'
  · cases f with
    | zero => simp [run] at h'
    | succ f =>
      simp only [run] at h'
      cases hr : runSeq (rule M U) f ps s with
      | ok ts r => rw [hr] at h'; cases h'
      | fail => exact ⟨f, hr⟩
      | timeout => rw [hr] at h'; cases h'

/-- No operator of level `n` begins with `c`. -/
def stopsAt (M : Marks) (U : Uni) (n : Nat) (c : Char) : Bool :=
  (conts n).all fun x => Peg.nopeSeq (rule M U) 200 x.2 (some c)

theorem stopsAt_fails {n : Nat} {c : Char} {s : Str} (h : stopsAt M U n c = true) :
    ∀ x ∈ conts n, FailsSeq (rule M U) x.2 (c :: s) := by
  intro x hx
  simp only [stopsAt, List.all_eq_true] at h
  exact .first 200 (h x hx)

theorem closer_stops {c : Char} (hc : c = ')' ∨ c = ']' ∨ c = '}' ∨ c = ',') :
    ∀ n ≤ 15, stopsAt M U n c = true := by
  intro n hn
  rcases hc with rfl | rfl | rfl | rfl <;>
  · match n, hn with
    | 0, _ | 1, _ | 2, _ | 3, _ | 4, _ | 5, _ | 6, _ | 7, _ | 8, _ | 9, _ | 10, _ | 11, _ | 12, _
    | 13, _ | 14, _ | 15, _ => rfl

/-- A closing bracket or a comma ends each expression. -/
theorem After.closer {c : Char} {w s : Str} (hc : c = ')' ∨ c = ']' ∨ c = '}' ∨ c = ',') (hw : Blanks w) :
    After M U 15 (w ++ c :: s) := by
  refine .intro hw (.cons ?_) ?_ ?_
  · rcases hc with rfl | rfl | rfl | rfl <;> rfl
  · intro _ d hd
    simp only [List.head?_cons, Option.some.injEq] at hd
    rw [← hd]
    rcases hc with rfl | rfl | rfl | rfl <;> rfl
  · intro n hn x hx
    exact .inr (stopsAt_fails (closer_stops hc n hn) x hx)

/-- A colon ends expressions up to level 8. -/
theorem After.colon {w s : Str} (hw : Blanks w) : After M U 8 (w ++ ':' :: s) := by
  refine .intro hw (.cons rfl) ?_ ?_
  · intro _ d hd
    simp only [List.head?_cons, Option.some.injEq] at hd
    rw [← hd]; rfl
  · intro n hn x hx
    refine .inr (stopsAt_fails ?_ x hx)
    match n, hn with
    | 0, _ | 1, _ | 2, _ | 3, _ | 4, _ | 5, _ | 6, _ | 7, _ | 8, _ => rfl

/-- Without an atom, there is no operand. -/
theorem Fails.operand {s : Str} (hb : NoBlank s) (hm : s.head? ≠ some '-')
    (h : Fails (rule M U) (.ref .atom) s) : Fails (rule M U) (.ref .pipeline) s := by
  have h1 : Fails (rule M U) (.ref .factor) s := .ref (.seq1 h)
  have h2 : Fails (rule M U) (.ref .pow_expr) s := .ref (.seq1 h1)
  have h3 : Fails (rule M U) (.ref .term) s := .ref (.seq1 h2)
  have hneg : Fails (rule M U) (.ref .neg) s := by
    refine .ref (.lit ?_)
    cases s with
    | nil => rfl
    | cons c s =>
      simp only [List.head?_cons, ne_eq, Option.some.injEq] at hm
      simp [List.isPrefixOf, Ne.symm hm]
  have h4 : Fails (rule M U) (.ref .arith_expr) s := by
    refine .ref (.seq ?_)
    refine .after (x := []) (.opt_none hneg) ?_
    exact .after (x := []) (.ws .nil hb) (.head h3)
  have h5 : Fails (rule M U) (.ref .shift_expr) s := .ref (.seq1 h4)
  have h6 : Fails (rule M U) (.ref .and_expr) s := .ref (.seq1 h5)
  have h7 : Fails (rule M U) (.ref .xor_expr) s := .ref (.seq1 h6)
  have h8 : Fails (rule M U) (.ref .or_expr) s := .ref (.seq1 h7)
  exact .ref (.seq1 h8)

/-- Words that separate operands. -/
def sepWords : List Str := [s!!"in", s!!"is", s!!"not", s!!"and", s!!"or", s!!"if", s!!"else"]

/-- No operand begins with a keyword. -/
theorem Fails.keyword {v w s : Str} (hv : v ∈ sepWords) (hw : Blanks w) (hne : w ≠ []) :
    Fails (rule M U) (.ref .pipeline) (v ++ (w ++ s)) := by
  have hr : v ∈ reservedNames := by
    have : ∀ v ∈ sepWords, v ∈ reservedNames := by decide
    exact this v hv
  have hname : Fails (rule M U) (.ref .name_id) (v ++ (w ++ s)) := by
    cases w with
    | nil => exact absurd rfl hne
    | cons c w =>
      refine .name_reserved hr (c := c) ?_ (.inl rfl)
      rcases hw c (by simp) with rfl | rfl <;> rfl
  simp only [sepWords, List.mem_cons, List.not_mem_nil, or_false] at hv
  rcases hv with rfl | rfl | rfl | rfl | rfl | rfl | rfl <;>
  · refine .operand (.cons rfl) (by simp) (.ref (.alt ?_))
    refine .cons (.first 200 rfl) (.cons (.ref (.seq ?_)) (.cons (.first 200 rfl) (.cons (.first 200 rfl)
      (.cons (.first 200 rfl) (.cons (.first 200 rfl) (.cons (.first 200 rfl) (.cons (.first 200 rfl) (.nil _))))))))
    exact .after (x := []) (.opt_none (.first 200 rfl)) (.head hname)

theorem not_prefix_two {a b c : Char} {s : Str} (h : s.head? ≠ some b) : [a, b].isPrefixOf (c :: s) = false := by
  cases s with
  | nil => simp [List.isPrefixOf]
  | cons d s =>
    simp only [List.head?_cons, ne_eq, Option.some.injEq] at h
    simp [List.isPrefixOf, Ne.symm h]

/-- An operator that consists of symbols ends the operands of tighter operators. -/
theorem After.sym {l : Nat} {w s : Str} {c : Char} (hw : Blanks w) (hb : isBlank c = false)
    (he : w = [] → endChar U c = true) (h : ∀ n ≤ l, stopsAt M U n c = true ∨ ∀ x ∈ conts n, FailsSeq (rule M U) x.2 (c :: s)) :
    After M U l (w ++ c :: s) := by
  refine .intro hw (.cons hb) ?_ ?_
  · intro hw d hd
    simp only [List.head?_cons, Option.some.injEq] at hd
    rw [← hd]; exact he hw
  · intro n hn x hx
    rcases h n hn with h | h
    · exact .inr (stopsAt_fails h x hx)
    · exact .inr (h x hx)

/-- First characters of operands, with blanks before them. -/
def operandChar (c : Char) : Bool := startSym c || nameStart c || isBlank c

theorem written_first {names : Str → Option Char} {l : Nat} {t : Str} {e : Expr} (h : Written M names l t e) :
    ∃ c s, t = c :: s ∧ (startSym c = true ∨ nameStart c = true) := by
  rcases written_opens h with h | ⟨_, c, s, rfl, _⟩
  · exact h.first
  · exact ⟨_, _, rfl, .inr rfl⟩

theorem operand_head {w t s : Str} (hw : Blanks w)
    (ht : ∃ c u, t = c :: u ∧ (startSym c = true ∨ nameStart c = true)) {d : Char} (hd : operandChar d = false) :
    (w ++ (t ++ s)).head? ≠ some d := by
  intro h
  obtain ⟨c, u, rfl, hc⟩ := ht
  cases w with
  | nil =>
    simp only [List.nil_append, List.cons_append, List.head?_cons, Option.some.injEq] at h
    rw [← h] at hd
    simp only [operandChar, Bool.or_eq_false_iff] at hd
    rcases hc with hc | hc
    · rw [hd.1.1] at hc; cases hc
    · rw [hd.1.2] at hc; cases hc
  | cons a w =>
    simp only [List.cons_append, List.head?_cons, Option.some.injEq] at h
    rw [← h] at hd
    rcases hw a (by simp) with h | h <;> rw [h] at hd <;> cases hd

/-- `c` begins neither a trailer nor an operator up to pipelines. -/
theorem stops_nine {c : Char} {s : Str} (h : (s!!"([.*/%+-<>&^|:").elem c = false) :
    ∀ n ≤ 9, ∀ x ∈ conts n, FailsSeq (rule M U) x.2 (c :: s) := by
  simp only [List.elem_eq_mem, List.mem_cons, List.not_mem_nil, or_false, decide_eq_false_iff_not, not_or] at h
  obtain ⟨h1, h2, h3, h4, h5, h6, h7, h8, h9, h10, h11, h12, h13, h14⟩ := h
  have hl : ∀ (a : Char) (l : Str), c ≠ a → Fails (rule M U) (.lit (a :: l)) (c :: s) := by
    intro a l hne
    refine .lit ?_
    simp [List.isPrefixOf, Ne.symm hne]
  intro n hn x hx
  match n, hn, hx with
  | 0, _, hx => simp [conts] at hx
  | 1, _, hx =>
    simp only [conts, List.mem_singleton] at hx
    subst hx
    refine .head (.ref (.alt (.cons (.ref (.seq1 (hl _ _ h1))) (.cons (.ref (.seq1 (hl _ _ h2)))
      (.cons (.ref (.seq1 (hl _ _ h3))) (.nil _))))))
  | 2, _, hx => simp only [conts, List.mem_singleton] at hx; subst hx; exact .head (.ref (hl _ _ h4))
  | 3, _, hx =>
    simp only [conts, List.mem_singleton] at hx
    subst hx
    exact .head (.ref (.alt (.cons (hl _ _ h4) (.cons (hl _ _ h5) (.cons (hl _ _ h5) (.cons (hl _ _ h6)
      (.nil _)))))))
  | 4, _, hx =>
    simp only [conts, List.mem_singleton] at hx
    subst hx
    exact .head (.ref (.alt (.cons (hl _ _ h7) (.cons (hl _ _ h8) (.nil _)))))
  | 5, _, hx =>
    simp only [conts, List.mem_singleton] at hx
    subst hx
    exact .head (.ref (.alt (.cons (hl _ _ h9) (.cons (hl _ _ h10) (.nil _)))))
  | 6, _, hx => simp only [conts, List.mem_singleton] at hx; subst hx; exact .head (hl _ _ h11)
  | 7, _, hx => simp only [conts, List.mem_singleton] at hx; subst hx; exact .head (hl _ _ h12)
  | 8, _, hx => simp only [conts, List.mem_singleton] at hx; subst hx; exact .head (hl _ _ h13)
  | 9, _, hx => simp only [conts, List.mem_singleton] at hx; subst hx; exact .head (hl _ _ h14)

/-- A keyword, with blanks around it, ends the operands before it. -/
theorem After.keyword {l : Nat} {v w w' s : Str} {c : Char} {u : Str} (hv : v ∈ sepWords) (hcu : v = c :: u)
    (hw : Blanks w) (hne : w ≠ []) (hw' : Blanks w') (hne' : w' ≠ [])
    (h : ∀ n ≤ l, 10 < n → ∀ x ∈ conts n, FailsSeq (rule M U) x.2 (v ++ (w' ++ s))) :
    After M U l (w ++ (v ++ (w' ++ s))) := by
  have hc : (s!!"([.*/%+-<>&^|:").elem c = false ∧ isBlank c = false := by
    have : ∀ v ∈ sepWords, ∀ c, v.head? = some c → (s!!"([.*/%+-<>&^|:").elem c = false ∧ isBlank c = false := by
      decide
    exact this v hv c (by rw [hcu]; rfl)
  have hnb : NoBlank (v ++ (w' ++ s)) := by rw [hcu]; exact .cons hc.2
  refine .intro hw hnb (fun h => absurd h hne) ?_
  intro n hn x hx
  rcases Nat.lt_trichotomy n 10 with h1 | h1 | h1
  · refine .inr ?_
    have := stops_nine (M := M) (U := U) (s := u ++ (w' ++ s)) hc.1 n (by omega) x hx
    rw [hcu]; exact this
  · subst h1
    simp only [conts, List.mem_singleton] at hx
    subst hx
    exact .inr (.head (.keyword hv hw' hne'))
  · exact .inr (h n hn h1 x hx)

theorem comp_if {s : Str} : ∀ x ∈ conts 11, FailsSeq (rule M U) x.2 ('i' :: 'f' :: s) := by
  intro x hx
  simp only [conts, List.mem_singleton] at hx
  subst hx
  refine .head (.ref (.rx ?_))
  rfl

/-- An operator ends the operand before it, with one blank between words. -/
theorem After.sep' {l : Nat} {w1 op w2 t s : Str} (h : Sep (l + 1) w1 op w2 t)
    (ht : ∃ c u, t = c :: u ∧ (startSym c = true ∨ nameStart c = true)) :
    After M U l (w1 ++ (op ++ (w2 ++ (t ++ s)))) := by
  have hm := h.mem
  have hl := binOps_lt hm
  have hh : ∀ {d : Char}, operandChar d = false → (w2 ++ (t ++ s)).head? ≠ some d := fun hd => operand_head h.blanks2 ht hd
  have hb := h.blanks1
  match l, hl, h, hm with
  | 0, _, h, hm => simp [binOps] at hm
  | 1, _, h, hm =>
    simp only [binOps, List.mem_singleton] at hm
    subst hm
    refine .sym hb rfl (fun _ => rfl) ?_
    intro n hn
    match n, hn with
    | 0, _ | 1, _ => exact .inl rfl
  | 2, _, h, hm =>
    simp only [binOps, List.mem_cons, List.not_mem_nil, or_false] at hm
    rcases hm with rfl | rfl | rfl | rfl
    · refine .sym hb rfl (fun _ => rfl) ?_
      intro n hn
      match n, hn with
      | 0, _ | 1, _ => exact .inl rfl
      | 2, _ =>
        refine .inr ?_
        intro x hx
        simp only [conts, List.mem_singleton] at hx
        subst hx
        exact .head (.ref (.lit (not_prefix_two (hh rfl))))
    all_goals
      refine .sym hb rfl (fun _ => rfl) ?_
      intro n hn
      match n, hn with
      | 0, _ | 1, _ | 2, _ => exact .inl rfl
  | 3, _, h, hm =>
    simp only [binOps, List.mem_cons, List.not_mem_nil, or_false] at hm
    rcases hm with rfl | rfl
    all_goals
      refine .sym hb rfl (fun _ => rfl) ?_
      intro n hn
      match n, hn with
      | 0, _ | 1, _ | 2, _ | 3, _ => exact .inl rfl
  | 4, _, h, hm =>
    simp only [binOps, List.mem_cons, List.not_mem_nil, or_false] at hm
    rcases hm with rfl | rfl
    all_goals
      refine .sym hb rfl (fun _ => rfl) ?_
      intro n hn
      match n, hn with
      | 0, _ | 1, _ | 2, _ | 3, _ | 4, _ => exact .inl rfl
  | 5, _, h, hm =>
    simp only [binOps, List.mem_singleton] at hm
    subst hm
    refine .sym hb rfl (fun _ => rfl) ?_
    intro n hn
    match n, hn with
    | 0, _ | 1, _ | 2, _ | 3, _ | 4, _ | 5, _ => exact .inl rfl
  | 6, _, h, hm =>
    simp only [binOps, List.mem_singleton] at hm
    subst hm
    refine .sym hb rfl (fun _ => rfl) ?_
    intro n hn
    match n, hn with
    | 0, _ | 1, _ | 2, _ | 3, _ | 4, _ | 5, _ | 6, _ => exact .inl rfl
  | 7, _, h, hm =>
    simp only [binOps, List.mem_singleton] at hm
    subst hm
    refine .sym hb rfl (fun _ => rfl) ?_
    intro n hn
    match n, hn with
    | 0, _ | 1, _ | 2, _ | 3, _ | 4, _ | 5, _ | 6, _ | 7, _ => exact .inl rfl
  | 8, _, h, hm => simp [binOps] at hm
  | 9, _, h, hm =>
    simp only [binOps, List.mem_singleton] at hm
    subst hm
    obtain ⟨h1, h2, h3⟩ := h.juxtaposed rfl
    subst h2
    obtain ⟨c, u, rfl, hc⟩ := ht
    have h4 := h3 c rfl
    refine .intro hb ?_ (fun h => absurd h h1) ?_
    · refine .cons ?_
      rcases hc with hc | hc
      · exact (startSym_cases hc).1
      · exact (nameStart_cases hc).1
    · intro n hn x hx
      refine .inr (stops_nine ?_ n hn x hx)
      have h5 : operandChar c = true := by
        simp only [operandChar, Bool.or_eq_true]
        exact .inl hc
      cases h6 : (s!!"([.*/%+-<>&^|:").elem c with
      | false => rfl
      | true =>
        exfalso
        simp only [List.elem_eq_mem, List.mem_cons, List.not_mem_nil, or_false, decide_eq_true_eq] at h6
        rcases h6 with rfl | rfl | rfl | rfl | rfl | rfl | rfl | rfl | rfl | rfl | rfl | rfl | rfl | rfl <;>
          first | (revert h4; decide) | (revert h5; decide)
  | 10, _, h, hm =>
    have shift : ∀ (a : Char) (r : Str), r.head? ≠ some '<' → r.head? ≠ some '>' →
        ∀ x ∈ conts 5, FailsSeq (rule M U) x.2 (a :: r) := by
      intro a r h1 h2 x hx
      simp only [conts, List.mem_singleton] at hx
      subst hx
      exact .head (.ref (.alt (.cons (.lit (not_prefix_two h1)) (.cons (.lit (not_prefix_two h2)) (.nil _)))))
    simp only [binOps, List.mem_cons, List.not_mem_nil, or_false] at hm
    rcases hm with rfl | rfl | rfl | rfl | rfl | rfl | rfl | rfl | rfl | rfl | rfl
    · refine .sym hb rfl (fun _ => rfl) ?_
      intro n hn
      match n, hn with
      | 0, _ | 1, _ | 2, _ | 3, _ | 4, _ | 5, _ | 6, _ | 7, _ | 8, _ | 9, _ | 10, _ => exact .inl rfl
    · refine .sym hb rfl (fun hw => absurd hw (h.neq rfl)) ?_
      intro n hn
      match n, hn with
      | 0, _ | 1, _ | 2, _ | 3, _ | 4, _ | 5, _ | 6, _ | 7, _ | 8, _ | 9, _ | 10, _ => exact .inl rfl
    · refine .sym hb rfl (fun _ => rfl) ?_
      intro n hn
      match n, hn with
      | 5, _ =>
        refine .inr ?_
        intro x hx
        simp only [conts, List.mem_singleton] at hx
        subst hx
        exact .head (.ref (.alt (.cons (.lit rfl) (.cons (.lit rfl) (.nil _)))))
      | 0, _ | 1, _ | 2, _ | 3, _ | 4, _ | 6, _ | 7, _ | 8, _ | 9, _ | 10, _ => exact .inl rfl
    · refine .sym hb rfl (fun _ => rfl) ?_
      intro n hn
      match n, hn with
      | 5, _ => exact .inr (shift _ _ (by simp) (by simp))
      | 0, _ | 1, _ | 2, _ | 3, _ | 4, _ | 6, _ | 7, _ | 8, _ | 9, _ | 10, _ => exact .inl rfl
    · refine .sym hb rfl (fun _ => rfl) ?_
      intro n hn
      match n, hn with
      | 5, _ => exact .inr (shift _ _ (by simp) (by simp))
      | 0, _ | 1, _ | 2, _ | 3, _ | 4, _ | 6, _ | 7, _ | 8, _ | 9, _ | 10, _ => exact .inl rfl
    · refine .sym hb rfl (fun _ => rfl) ?_
      intro n hn
      match n, hn with
      | 5, _ => exact .inr (shift _ _ (hh rfl) (hh rfl))
      | 0, _ | 1, _ | 2, _ | 3, _ | 4, _ | 6, _ | 7, _ | 8, _ | 9, _ | 10, _ => exact .inl rfl
    · refine .sym hb rfl (fun _ => rfl) ?_
      intro n hn
      match n, hn with
      | 5, _ => exact .inr (shift _ _ (hh rfl) (hh rfl))
      | 0, _ | 1, _ | 2, _ | 3, _ | 4, _ | 6, _ | 7, _ | 8, _ | 9, _ | 10, _ => exact .inl rfl
    · exact .keyword (by decide) rfl hb (h.word rfl).1 h.blanks2 (h.word rfl).2 (fun n h1 h2 => by omega)
    · exact .keyword (by decide) rfl hb (h.word rfl).1 h.blanks2 (h.word rfl).2 (fun n h1 h2 => by omega)
    · exact .keyword (v := s!!"not") (w' := [' ']) (s := s!!"in" ++ (w2 ++ (t ++ s))) (by decide) rfl hb (h.word rfl).1
        (by simp [Blanks]) (by simp) (fun n h1 h2 => by omega)
    · exact .keyword (v := s!!"is") (w' := [' ']) (s := s!!"not" ++ (w2 ++ (t ++ s))) (by decide) rfl hb (h.word rfl).1
        (by simp [Blanks]) (by simp) (fun n h1 h2 => by omega)
  | 11, _, h, hm => simp [binOps] at hm
  | 12, _, h, hm =>
    simp only [binOps, List.mem_singleton] at hm
    subst hm
    refine .keyword (by decide) rfl hb (h.word rfl).1 h.blanks2 (h.word rfl).2 ?_
    intro n hn h10
    match n, hn, h10 with
    | 11, _, _ => exact stopsAt_fails rfl
    | 12, _, _ => exact stopsAt_fails rfl
  | 13, _, h, hm =>
    simp only [binOps, List.mem_singleton] at hm
    subst hm
    refine .keyword (by decide) rfl hb (h.word rfl).1 h.blanks2 (h.word rfl).2 ?_
    intro n hn h10
    match n, hn, h10 with
    | 11, _, _ => exact stopsAt_fails rfl
    | 12, _, _ => exact stopsAt_fails rfl
    | 13, _, _ => exact stopsAt_fails rfl

theorem two_words {l : Nat} {op : Str} (hm : op ∈ binOps l) (hop : op = s!!"not in" ∨ op = s!!"is not") : l = 11 := by
  have key : ∀ l, l < 15 → (s!!"not in") ∈ binOps l ∨ (s!!"is not") ∈ binOps l → l = 11 := by decide
  refine key l (binOps_lt hm) ?_
  rcases hop with rfl | rfl
  · exact .inl hm
  · exact .inr hm

/-- An operator ends the operand before it. -/
theorem After.sep {l : Nat} {w1 op o w2 t s : Str} (h : Sep (l + 1) w1 op w2 t) (ho : OpForm op o)
    (ht : ∃ c u, t = c :: u ∧ (startSym c = true ∨ nameStart c = true)) :
    After M U l (w1 ++ (o ++ (w2 ++ (t ++ s)))) := by
  cases ho with
  | same => exact .sep' h ht
  | @notIn w hw hne =>
    have := two_words h.mem (.inl rfl)
    have := After.keyword (M := M) (U := U) (l := l) (v := s!!"not") (w' := w) (s := s!!"in" ++ (w2 ++ (t ++ s))) (by decide) rfl h.blanks1 (h.word rfl).1 hw hne
      (fun n h1 h2 => by omega)
    simpa using this
  | @isNot w hw hne =>
    have := two_words h.mem (.inr rfl)
    have := After.keyword (M := M) (U := U) (l := l) (v := s!!"is") (w' := w) (s := s!!"not" ++ (w2 ++ (t ++ s))) (by decide) rfl h.blanks1 (h.word rfl).1 hw hne
      (fun n h1 h2 => by omega)
    simpa using this

/-- `if` ends the expression before it. -/
theorem After.if' {w w' s : Str} (hw : Blanks w) (hne : w ≠ []) (hw' : Blanks w') (hne' : w' ≠ []) :
    After M U 14 (w ++ (s!!"if" ++ (w' ++ s))) := by
  refine .keyword (by decide) rfl hw hne hw' hne' ?_
  intro n hn h10
  match n, hn, h10 with
  | 11, _, _ => exact comp_if
  | 12, _, _ => exact stopsAt_fails rfl
  | 13, _, _ => exact stopsAt_fails rfl
  | 14, _, _ => exact stopsAt_fails rfl

/-- `else` ends the expression before it. -/
theorem After.else' {w w' s : Str} (hw : Blanks w) (hne : w ≠ []) (hw' : Blanks w') (hne' : w' ≠ []) :
    After M U 14 (w ++ (s!!"else" ++ (w' ++ s))) := by
  refine .keyword (by decide) rfl hw hne hw' hne' ?_
  intro n hn h10
  match n, hn, h10 with
  | 11, _, _ => exact stopsAt_fails rfl
  | 12, _, _ => exact stopsAt_fails rfl
  | 13, _, _ => exact stopsAt_fails rfl
  | 14, _, _ => exact stopsAt_fails rfl

/-- An operator of a chain of level 9: `:`. -/
theorem After.filter {w s : Str} (hw : Blanks w) : After M U 8 (w ++ ':' :: s) := .colon hw

/-- A character that begins no operator. -/
theorem After.stop {rest : Str}
    (h : ∀ c, rest.head? = some c → endChar U c = true ∧ isBlank c = false ∧ (s!!"([.*/%+-<>&^|:=!ni").elem c = false) :
    After M U 15 rest := by
  cases rest with
  | nil =>
    refine .intro (w := []) .nil (by intro c hc; cases hc) (by intro _ c hc; cases hc) ?_
    intro n hn x hx
    refine .inr (.first 200 ?_)
    have : ∀ n ≤ 15, (conts n).all (fun x => Peg.nopeSeq (rule M U) 200 x.2 none) = true := by
      intro n hn
      match n, hn with
      | 0, _ | 1, _ | 2, _ | 3, _ | 4, _ | 5, _ | 6, _ | 7, _ | 8, _ | 9, _ | 10, _ | 11, _ | 12, _
      | 13, _ | 14, _ | 15, _ => rfl
    have := this n hn
    simp only [List.all_eq_true] at this
    exact this x hx
  | cons c s =>
    obtain ⟨h1, h2, h3⟩ := h c rfl
    refine .intro (w := []) .nil (.cons h2) (by intro _ d hd; simp at hd; rw [← hd]; exact h1) ?_
    intro n hn x hx
    have h4 : (s!!"([.*/%+-<>&^|:").elem c = false := by
      simp only [List.elem_eq_mem, List.mem_cons, List.not_mem_nil, or_false, decide_eq_false_iff_not, not_or] at h3 ⊢
      simp only [h3, not_false_eq_true, and_self]
    by_cases h9 : n ≤ 9
    · exact .inr (stops_nine h4 n h9 x hx)
    · match n, hn, h9, hx with
      | 10, _, _, hx | 13, _, _, hx | 14, _, _, hx =>
        simp only [conts, List.mem_singleton] at hx
        subst hx
        exact .inl ⟨rfl, rfl⟩
      | 12, _, _, hx => simp [conts] at hx
      | 15, _, _, hx =>
        simp only [conts, List.mem_cons, List.not_mem_nil, or_false] at hx
        rcases hx with rfl | rfl <;> exact .inl ⟨rfl, rfl⟩
      | 11, _, _, hx =>
        simp only [conts, List.mem_singleton] at hx
        subst hx
        refine .inr (.head (.ref (.rx (RE.match?_nope ?_))))
        simp only [List.elem_eq_mem, List.mem_cons, List.not_mem_nil, or_false, decide_eq_false_iff_not, not_or] at h3
        simp [reComp, RE.alts, RE.nope, RE.word, inClass, h3, RE.many1]

end
end Verif
