import Verif.Lemmas.Documents

/-! Written expressions contain no newline, and do not begin or end with whitespace. -/

set_option linter.unusedSectionVars false

namespace Verif
open Py Spec

/-- A text without newlines, which is not empty and does not end with whitespace. -/
structure Neat (t : Str) : Prop where
  nl : '\n' ∉ t
  last : ∃ s c, t = s ++ [c] ∧ isSpace c = false

theorem Neat.append {x y : Str} (hx : '\n' ∉ x) (hy : Neat y) : Neat (x ++ y) := by
  obtain ⟨h, s, c, rfl, hc⟩ := hy
  exact ⟨by simp at h ⊢; exact ⟨hx, h⟩, x ++ s, c, by simp, hc⟩

theorem Neat.snoc {x : Str} {c : Char} (hx : '\n' ∉ x) (hc : isSpace c = false) : Neat (x ++ [c]) := by
  refine .append hx ⟨?_, [], c, rfl, hc⟩
  simp only [List.mem_singleton]
  rintro rfl
  cases hc

theorem Neat.cons {x : Str} {c : Char} (hc : c ≠ '\n') (h : Neat x) : Neat (c :: x) :=
  .append (x := [c]) (by simpa using hc.symm) h

theorem Neat.end {x y : Str} (hx : Neat x) (hy : y = [] ∨ Neat y) : Neat (x ++ y) := by
  rcases hy with rfl | hy
  · simpa using hx
  · exact .append hx.nl hy

theorem nameChar_notSpace {c : Char} (h : nameChar c = true) : isSpace c = false := by
  simp only [nameChar, azI, ascDigit, Bool.or_eq_true, Bool.and_eq_true, decide_eq_true_eq, beq_iff_eq] at h
  have h' : c.toNat = 95 ∨ (97 ≤ c.toNat ∧ c.toNat ≤ 122) ∨ (65 ≤ c.toNat ∧ c.toNat ≤ 90) ∨ (48 ≤ c.toNat ∧ c.toNat ≤ 57) ∨
      c.toNat = 0x130 ∨ c.toNat = 0x131 ∨ c.toNat = 0x17F ∨ c.toNat = 0x212A := by
    rcases h with (h | h) | rfl
    · rcases h with ((((h | h) | h) | h) | h) | h <;> simp [h]
    · have h1 : 48 ≤ c.toNat := by simpa using h.1
      have h2 : c.toNat ≤ 57 := by simpa using h.2
      exact .inr (.inr (.inr (.inl ⟨h1, h2⟩)))
    · exact .inl rfl
  simp only [isSpace, Bool.or_eq_false_iff, Bool.and_eq_false_iff, decide_eq_false_iff_not, beq_eq_false_iff_ne]
  omega

theorem neat_chars {n : Str} (hn : n ≠ []) (h : ∀ c ∈ n, nameChar c = true) : Neat n := by
  refine ⟨fun hm => ?_, ?_⟩
  · have := h _ hm
    cases this
  · rw [← List.dropLast_concat_getLast hn]
    exact ⟨_, _, rfl, nameChar_notSpace (h _ (List.getLast_mem hn))⟩

theorem neat_name {n : Str} (h : Name n) : Neat n := by
  obtain ⟨c, s, rfl, _⟩ := h.start
  exact neat_chars (by simp) h.chars

theorem digit_name {c : Char} (h : ascDigit c = true) : nameChar c = true := by simp [nameChar, h]

theorem neat_decimal {n : Str} (h : IsDecimal n) : Neat n := by
  obtain ⟨ds, hne, hd, rfl | ⟨fs, hf, rfl⟩⟩ := h
  · exact neat_chars hne (fun c hc => digit_name (hd c hc))
  · have h1 : Neat ds := neat_chars hne (fun c hc => digit_name (hd c hc))
    by_cases hfs : fs = []
    · subst hfs
      exact .snoc h1.nl (by decide)
    · have h2 : Neat fs := neat_chars hfs (fun c hc => digit_name (hf c hc))
      exact .append h1.nl (.cons (by decide) h2)

theorem neat_number {n : Str} (h : IsNumber n) : Neat n := by
  obtain ⟨d, x, hd, hx, rfl⟩ := h
  have h1 := neat_decimal hd
  rcases hx with rfl | ⟨e, sign, ds, he, hs, hne, hds, rfl⟩
  · rwa [List.append_nil]
  · have h2 : Neat ds := neat_chars hne (fun c hc => digit_name (hds c hc))
    refine .append h1.nl (.cons ?_ (.append ?_ h2))
    · rcases he with rfl | rfl <;> decide
    · rcases hs with rfl | rfl | rfl <;> decide

theorem neat_qual (q : Option Qual) : qualText q = [] ∨ Neat (qualText q) := by
  cases q with
  | none => exact .inl rfl
  | some q => cases q <;> exact .inr (.snoc (x := []) (by simp) (by decide))

section
variable {M : Marks} {names : Str → Option Char}

theorem sep_nl {l : Nat} {w1 op w2 t : Str} (h : Sep l w1 op w2 t) : '\n' ∉ w1 ∧ '\n' ∉ op ∧ '\n' ∉ w2 := by
  refine ⟨blanks_nl h.blanks1, ?_, blanks_nl h.blanks2⟩
  have := h.mem
  have key : ∀ l, ∀ op ∈ binOps l, '\n' ∉ op := by
    intro l
    by_cases hl : l ≤ 14
    · have : ∀ l ≤ 14, ∀ op ∈ binOps l, '\n' ∉ op := by decide
      exact this l hl
    · have : binOps l = [] := by
        unfold binOps
        split <;> first | omega | rfl
      rw [this]; simp
  exact key l op this

theorem form_nl {op o : Str} (h : OpForm op o) (hn : '\n' ∉ op) : '\n' ∉ o := by
  cases h with
  | same => exact hn
  | notIn hw _ => have := blanks_nl hw; simp [*]
  | isNot hw _ => have := blanks_nl hw; simp [*]

mutual
theorem written_neat : ∀ {l : Nat} {t : Str} {e : Expr}, Written M names l t e → Neat t
  | _, _, _, .number h => neat_number h
  | _, _, _, .true => neat_chars (by simp) (by decide)
  | _, _, _, .false => neat_chars (by simp) (by decide)
  | _, _, _, .none => neat_chars (by simp) (by decide)
  | _, _, _, .string hq hp => by
    have := parts_nl hp
    rcases hq with rfl | rfl <;> exact .cons (by decide) (.snoc this (by decide))
  | _, _, _, .raw hq _ hn => by
    rcases hq with rfl | rfl <;> exact .cons (by decide) (.cons (by decide) (.snoc hn (by decide)))
  | _, _, _, .var h => neat_name h.toName
  | _, _, _, .dollar h => .cons (by decide) (neat_name h)
  | _, _, _, .tag h => .cons (by decide) (neat_name h)
  | _, _, _, .paren hw h hw' => by
    have h1 := written_neat h
    have := blanks_nl hw; have := blanks_nl hw'; have := h1.nl
    exact .cons (by decide) (.snoc (by simp [*]) (by decide))
  | _, _, _, .list hw h h' => by
    have h1 := items_nl h
    have h2 := last_nl h'
    have := blanks_nl hw
    exact .cons (by decide) (.snoc (by simp [*]) (by decide))
  | _, _, _, .unit hw => .cons (by decide) (.snoc (blanks_nl hw) (by decide))
  | _, _, _, .tuple hw h _ h' => by
    have h1 := items_nl h
    have h2 := last_nl h'
    have := blanks_nl hw
    exact .cons (by decide) (.snoc (by simp [*]) (by decide))
  | _, _, _, .set hw h h' hw' => by
    have h1 := written_neat h
    have h2 := elems_nl h'
    have := blanks_nl hw; have := blanks_nl hw'; have := h1.nl
    exact .cons (by decide) (.snoc (by simp [*]) (by decide))
  | _, _, _, .dict hw h hw' => by
    have h1 := pairs_nl h
    have := blanks_nl hw; have := blanks_nl hw'
    exact .cons (by decide) (.snoc (by simp [*]) (by decide))
  | _, _, _, .tails h h' _ _ => .end (.end (written_neat h) (tails_neat h')) (neat_qual _)
  | _, _, _, .qualified h _ => .end (written_neat h) (neat_qual _)
  | _, _, _, .up h _ => written_neat h
  | _, _, _, .chain h h' _ => .end (written_neat h) (chain_neat h')
  | _, _, _, .minus hw h h' => .cons (by decide) (.end (.append (blanks_nl hw) (written_neat h)) (chain_neat h'))
  | _, _, _, .pipeline h h' _ => .end (written_neat h) (filters_neat h')
  | _, _, _, .nots h h' => .append (nots_nl h) (written_neat h')
  | _, _, _, .ifOnly h hw1 _ hw2 _ h' => by
    have h1 := written_neat h
    have h2 := written_neat h'
    exact .append h1.nl (.append (blanks_nl hw1) (.append (by decide) (.append (blanks_nl hw2) h2)))
  | _, _, _, .ifElse h hw1 _ hw2 _ h' hw3 _ hw4 _ h'' => by
    have h1 := written_neat h
    have h2 := written_neat h'
    have h3 := written_neat h''
    exact .append h1.nl (.append (blanks_nl hw1) (.append (by decide) (.append (blanks_nl hw2) (.append h2.nl
      (.append (blanks_nl hw3) (.append (by decide) (.append (blanks_nl hw4) h3)))))))

theorem chain_neat : ∀ {l : Nat} {t : Str} {os : List Str} {es : List Expr}, Spec.Chain M names l t os es → t = [] ∨ Neat t
  | _, _, _, _, .nil => .inl rfl
  | _, _, _, _, .cons hs ho h h' => by
    have h1 := written_neat h
    have h2 := chain_neat h'
    obtain ⟨a, b, c⟩ := sep_nl hs
    have b := form_nl ho b
    exact .inr (.append a (.append b (.append c (.end h1 h2))))

theorem nots_nl : ∀ {n : Nat} {t : Str}, Nots M names n t → '\n' ∉ t
  | _, _, .nil => by simp
  | _, _, .cons hw _ h => by
    have h1 := nots_nl h
    have := blanks_nl hw
    simp [*]

theorem filters_neat : ∀ {t : Str} {es : List Expr}, Filters M names t es → t = [] ∨ Neat t
  | _, _, .nil => .inl rfl
  | _, _, .plain hw1 hw2 h h' => by
    have h1 := filtname_neat h
    have h2 := filters_neat h'
    exact .inr (.append (blanks_nl hw1) (.cons (by decide) (.append (blanks_nl hw2) (.end h1 h2))))
  | _, _, .args hw1 hw2 h hw3 h' h'' => by
    have h1 := filtname_neat h
    have h2 := args_nl h'
    have h3 := filters_neat h''
    have h4 : Neat [')'] := .snoc (x := []) (by simp) (by decide)
    have := Neat.end h4 h3
    exact .inr (.append (blanks_nl hw1) (.cons (by decide) (.append (blanks_nl hw2) (.append h1.nl (.cons (by decide)
      (.append (blanks_nl hw3) (.append h2 this)))))))

theorem filtname_neat : ∀ {t : Str} {e : Expr}, FilterName M names t e → Neat t
  | _, _, .atom h => written_neat h
  | _, _, .tails h h' _ _ _ => .end (written_neat h) (tails_neat h')

theorem tails_neat : ∀ {t : Str} {ts : List Tail}, Tails M names t ts → t = [] ∨ Neat t
  | _, _, .nil => .inl rfl
  | _, _, .call hw h h' => by
    have h1 := args_nl h
    have h2 : Neat [')'] := .snoc (x := []) (by simp) (by decide)
    have := Neat.end h2 (tails_neat h')
    exact .inr (.cons (by decide) (.append (blanks_nl hw) (.append h1 this)))
  | _, _, .index hw h hw' h' => by
    have h1 := written_neat h
    have h2 : Neat [']'] := .snoc (x := []) (by simp) (by decide)
    have := Neat.end h2 (tails_neat h')
    exact .inr (.cons (by decide) (.append (blanks_nl hw) (.append h1.nl (.append (blanks_nl hw') this))))
  | _, _, .slice h1 h2 h' => by
    have h1 := bound_nl h1
    have h2 := bound_nl h2
    have h3 : Neat [']'] := .snoc (x := []) (by simp) (by decide)
    have := Neat.end h3 (tails_neat h')
    exact .inr (.cons (by decide) (.append h1 (.cons (by decide) (.append h2 this))))
  | _, _, .sliceStep h1 h2 h3 h' => by
    have h1 := bound_nl h1
    have h2 := bound_nl h2
    have h3 := bound_nl h3
    have h4 : Neat [']'] := .snoc (x := []) (by simp) (by decide)
    have := Neat.end h4 (tails_neat h')
    exact .inr (.cons (by decide) (.append h1 (.cons (by decide) (.append h2 (.cons (by decide) (.append h3 this))))))
  | _, _, .member hw hn h' => .inr (.cons (by decide) (.append (blanks_nl hw) (.end (neat_name hn) (tails_neat h'))))

theorem bound_nl : ∀ {t : Str} {e : Expr}, Bound M names t e → '\n' ∉ t
  | _, _, .empty hw => blanks_nl hw
  | _, _, .expr hw h hw' => by
    have h1 := (written_neat h).nl
    have := blanks_nl hw; have := blanks_nl hw'
    simp [*]

theorem args_nl : ∀ {t : Str} {ns : List (Option Str)} {es : List Expr}, Args M names t ns es → '\n' ∉ t
  | _, _, _, .none => by simp
  | _, _, _, .last h hw => by
    have h1 := arg_nl h
    have := blanks_nl hw
    simp [*]
  | _, _, _, .cons h hw1 hw2 h' _ => by
    have h1 := arg_nl h
    have h2 := args_nl h'
    have := blanks_nl hw1; have := blanks_nl hw2
    simp [*]

theorem arg_nl : ∀ {t : Str} {n : Option Str} {e : Expr}, Arg M names t n e → '\n' ∉ t
  | _, _, _, .positional h => (written_neat h).nl
  | _, _, _, .keyword hn hw1 hw2 h => by
    have h1 := (written_neat h).nl
    have := blanks_nl hw1; have := blanks_nl hw2; have := (neat_name hn).nl
    simp [*]

theorem items_nl : ∀ {t : Str} {es : List Expr}, Items M names t es → '\n' ∉ t
  | _, _, .nil => by simp
  | _, _, .cons h hw1 hw2 h' => by
    have h1 := (written_neat h).nl
    have h2 := items_nl h'
    have := blanks_nl hw1; have := blanks_nl hw2
    simp [*]

theorem last_nl : ∀ {t : Str} {es : List Expr}, Last M names t es → '\n' ∉ t
  | _, _, .none => by simp
  | _, _, .one h hw => by
    have h1 := (written_neat h).nl
    have := blanks_nl hw
    simp [*]

theorem elems_nl : ∀ {t : Str} {es : List Expr}, Elems M names t es → '\n' ∉ t
  | _, _, .nil => by simp
  | _, _, .cons hw1 hw2 h h' => by
    have h1 := (written_neat h).nl
    have h2 := elems_nl h'
    have := blanks_nl hw1; have := blanks_nl hw2
    simp [*]

theorem pairs_nl : ∀ {t : Str} {es : List Expr}, Pairs M names t es → '\n' ∉ t
  | _, _, .nil => by simp
  | _, _, .last hk hw1 hw2 hv => by
    have h1 := (written_neat hk).nl
    have h2 := (written_neat hv).nl
    have := blanks_nl hw1; have := blanks_nl hw2
    simp [*]
  | _, _, .cons hk hw1 hw2 hv hw3 hw4 h _ => by
    have h1 := (written_neat hk).nl
    have h2 := (written_neat hv).nl
    have h3 := pairs_nl h
    have := blanks_nl hw1; have := blanks_nl hw2; have := blanks_nl hw3; have := blanks_nl hw4
    simp [*]

theorem parts_nl : ∀ {q : Option Char} {t : Str} {es : List Expr}, Parts M names q t es → '\n' ∉ t
  | _, _, _, .nil => by simp
  | _, _, _, .text _ hs _ h _ => by
    have h1 := parts_nl h
    intro hm
    rcases List.mem_append.mp hm with hm | hm
    · exact (hs _ hm).2.2.2.1 rfl
    · exact h1 hm
  | _, _, _, .doubled hc h => by
    have h1 := parts_nl h
    rcases hc with rfl | rfl | rfl <;> simp [h1]
  | _, _, _, .braces hw h hw' _ h' _ => by
    have h1 := (written_neat h).nl
    have h2 := parts_nl h'
    have := blanks_nl hw; have := blanks_nl hw'
    simp [*]
  | _, _, _, .var hn h _ => by
    have h1 := parts_nl h
    have := (neat_name hn).nl
    simp [*]
  | _, _, _, .varTails hn h _ h' _ => by
    have h1 := tails_neat h
    have h2 := parts_nl h'
    have h3 := (neat_name hn).nl
    rcases h1 with rfl | h1
    · simp [*]
    · have := h1.nl
      simp [*]
  | _, _, _, .bracesQual (a := a) hw h hw' _ h' => by
    have h1 := (written_neat h).nl
    have h2 := parts_nl h'
    have := blanks_nl hw; have := blanks_nl hw'
    cases a <;> simp [qualText, *]
  | _, _, _, .varQual (a := a) hn h h' => by
    have h1 := tails_neat h
    have h2 := parts_nl h'
    have h3 := (neat_name hn).nl
    rcases h1 with rfl | h1
    · cases a <;> simp [qualText, *]
    · have := h1.nl
      cases a <;> simp [qualText, *]
end

end

/-- A neat text that does not begin with whitespace can be a line of a script. -/
theorem Neat.line {c : Char} {x : Str} (h : Neat (c :: x)) (hc : isSpace c = false) : TrimmedLine (c :: x) := by
  obtain ⟨hn, s, d, e, hd⟩ := h
  refine ⟨by simp, ?_, hn⟩
  have h1 : rstrip (c :: x) = c :: x := by
    rw [e]
    simp [rstrip, List.dropWhile_cons_of_neg, hd]
  rw [strip, h1]
  simp [lstrip, List.dropWhile_cons_of_neg, hc]

/-- A script of one line. -/
theorem one_line {c : Char} {x : Str} (h : Neat (c :: x)) (hc : isSpace c = false) :
    ItemsOk [.line 0 (c :: x)] ∧ itemText [.line 0 (c :: x)] = c :: x := by
  refine ⟨⟨h.line hc, trivial, by simp [Item.isGroup]⟩, ?_⟩
  simp [itemText, itemLines, Item.lines, join]

end Verif
