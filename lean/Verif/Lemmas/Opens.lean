import Verif.Lemmas.Lexical

/-! How the written form of an expression begins. -/

namespace Verif
open Py Spec

/-- First characters of expressions that do not begin with a name. -/
def startSym (c : Char) : Bool := (s!!"$%([{-'\"").elem c || ascDigit c

/-- What follows a name does not look like an assignment. -/
def Goes (r : Str) : Prop :=
  r = [] ∨ ∃ w c s, r = w ++ c :: s ∧ Blanks w ∧ isBlank c = false ∧ (c = '=' → s.head? = some '=')

/-- What may follow a name. -/
structure Joins (r : Str) : Prop where
  ends : NameEnd r
  goes : Goes r

/-- Beginning of an expression: a symbol, or a name. -/
inductive Opens (t : Str) : Prop
  | sym (c : Char) (s : Str) (ht : t = c :: s) (hc : startSym c = true)
  | word (n r : Str) (ht : t = n ++ r) (hn : Name n) (hr : Joins r)

theorem Joins.nil : Joins [] := by
  refine ⟨?_, .inl rfl⟩
  intro c h
  cases h

theorem Joins.sym {c : Char} {s : Str} (h1 : nameChar c = false) (h2 : isBlank c = false) (h3 : c ≠ '=') :
    Joins (c :: s) := by
  refine ⟨?_, .inr ⟨[], c, s, rfl, .nil, h2, fun h => absurd h h3⟩⟩
  intro d hd
  simp only [List.head?_cons, Option.some.injEq] at hd
  rw [← hd]; exact h1

theorem Joins.blank {w : Str} {c : Char} {s : Str} (hw : Blanks w) (hne : w ≠ []) (h2 : isBlank c = false)
    (h3 : c = '=' → s.head? = some '=') : Joins (w ++ c :: s) := by
  refine ⟨?_, .inr ⟨w, c, s, rfl, hw, h2, h3⟩⟩
  intro d hd
  cases w with
  | nil => exact absurd rfl hne
  | cons a w =>
    simp only [List.cons_append, List.head?_cons, Option.some.injEq] at hd
    rcases hw a (by simp) with h | h <;> rw [← hd, h] <;> rfl

/-- A symbol with blanks before it. -/
theorem Joins.op {w : Str} {c : Char} {s : Str} (hw : Blanks w) (h1 : nameChar c = false)
    (h2 : isBlank c = false) (h3 : c = '=' → s.head? = some '=') : Joins (w ++ c :: s) := by
  by_cases hne : w = []
  · subst hne
    refine ⟨?_, .inr ⟨[], c, s, rfl, .nil, h2, h3⟩⟩
    intro d hd
    simp only [List.nil_append, List.head?_cons, Option.some.injEq] at hd
    rw [← hd]; exact h1
  · exact .blank hw hne h2 h3

theorem Joins.append {r s : Str} (h : Joins r) (h' : Joins s) : Joins (r ++ s) := by
  cases r with
  | nil => exact h'
  | cons a r =>
    refine ⟨h.ends, ?_⟩
    rcases h.goes with h | ⟨w, c, u, hu, h1, h2, h3⟩
    · cases h
    · refine .inr ⟨w, c, u ++ s, by rw [hu]; simp, h1, h2, ?_⟩
      intro hc
      have := h3 hc
      cases u with
      | nil => cases this
      | cons d u => exact this

theorem Opens.append {t s : Str} (h : Opens t) (h' : Joins s) : Opens (t ++ s) := by
  cases h with
  | sym c u ht hc => exact .sym c (u ++ s) (by rw [ht]; rfl) hc
  | word n r ht hn hr => exact .word n (r ++ s) (by rw [ht]; simp) hn (hr.append h')

theorem Opens.first {t : Str} (h : Opens t) : ∃ c s, t = c :: s ∧ (startSym c = true ∨ nameStart c = true) := by
  cases h with
  | sym c s ht hc => exact ⟨c, s, ht, .inl hc⟩
  | word n r ht hn hr =>
    obtain ⟨c, s, hcs, hc, _⟩ := hn.start
    exact ⟨c, s ++ r, by rw [ht, hcs]; rfl, .inr hc⟩

theorem azI_cases {c : Char} (h : azI c = true) : c ≠ ' ' ∧ c ≠ '\t' ∧ c ≠ '=' ∧ c ≠ '\n' := by
  refine ⟨?_, ?_, ?_, ?_⟩ <;> · intro hc; subst hc; revert h; decide

theorem nameStart_cases {c : Char} (h : nameStart c = true) : isBlank c = false ∧ c ≠ '=' := by
  refine ⟨?_, ?_⟩
  · cases hb : isBlank c with
    | false => rfl
    | true =>
      exfalso
      simp only [isBlank, Bool.or_eq_true, beq_iff_eq] at hb
      rcases hb with rfl | rfl <;> revert h <;> decide
  · intro hc; subst hc; revert h; decide

theorem startSym_cases {c : Char} (h : startSym c = true) : isBlank c = false ∧ c ≠ '=' := by
  refine ⟨?_, ?_⟩
  · cases hb : isBlank c with
    | false => rfl
    | true =>
      exfalso
      simp only [isBlank, Bool.or_eq_true, beq_iff_eq] at hb
      rcases hb with rfl | rfl <;> revert h <;> decide
  · intro hc; subst hc; revert h; decide

section
variable {M : Marks} {names : Str → Option Char}

theorem tails_joins {t : Str} {ts : List Tail} (h : Tails M names t ts) : Joins t := by
  cases h with
  | nil => exact .nil
  | call _ _ _ => exact .sym rfl rfl (by decide)
  | index _ _ _ _ => exact .sym rfl rfl (by decide)
  | slice _ _ _ => exact .sym rfl rfl (by decide)
  | sliceStep _ _ _ _ => exact .sym rfl rfl (by decide)
  | member _ _ _ => exact .sym rfl rfl (by decide)

theorem qualText_joins (q : Option Qual) : Joins (qualText q) := by
  cases q with
  | none => exact .nil
  | some q => cases q <;> exact .sym rfl rfl (by decide)

theorem filters_joins {t : Str} {es : List Expr} (h : Filters M names t es) : Joins t := by
  cases h with
  | nil => exact .nil
  | plain h1 _ _ _ => exact .op h1 rfl rfl (fun h => absurd h (by decide))
  | args h1 _ _ _ _ _ => exact .op h1 rfl rfl (fun h => absurd h (by decide))

/-- What is needed of operators. -/
def opOk : Str → Bool
  | [] => true
  | c :: u => (isWordOp (c :: u) && !isBlank c && c != '=') ||
      (!nameChar c && !isBlank c && (c != '=' || u.head? == some '='))

theorem binOps_lt {l : Nat} {op : Str} (h : op ∈ binOps l) : l < 15 := by
  by_cases hl : l < 15
  · exact hl
  · obtain ⟨m, rfl⟩ : ∃ m, l = m + 15 := ⟨l - 15, by omega⟩
    simp [binOps] at h

theorem binOps_ok {l : Nat} {op : Str} (h : op ∈ binOps l) : opOk op = true := by
  have : ∀ l, l < 15 → ∀ op ∈ binOps l, opOk op = true := by decide
  exact this l (binOps_lt h) op h

/-- The operator and what follows it. -/
theorem sep_joins {l : Nat} {w1 op w2 t s : Str} (h : Sep l w1 op w2 t) (ht : op = [] → Opens t) :
    Joins (w1 ++ (op ++ (w2 ++ (t ++ s)))) := by
  have hm : op = [] ∨ isWordOp op = true ∧ (∃ c u, op = c :: u ∧ isBlank c = false ∧ c ≠ '=') ∨
      ∃ c u, op = c :: u ∧ nameChar c = false ∧ isBlank c = false ∧ (c = '=' → u.head? = some '=') := by
    have hop := binOps_ok h.mem
    cases op with
    | nil => exact .inl rfl
    | cons c u =>
      simp only [opOk, Bool.or_eq_true, Bool.and_eq_true, Bool.not_eq_true', bne_iff_ne, beq_iff_eq, ne_eq] at hop
      rcases hop with ⟨⟨h1, h2⟩, h3⟩ | ⟨⟨h1, h2⟩, h3⟩
      · exact .inr (.inl ⟨h1, c, u, rfl, h2, h3⟩)
      · refine .inr (.inr ⟨c, u, rfl, h1, h2, ?_⟩)
        rcases h3 with h3 | h3
        · exact fun h => absurd h h3
        · exact fun _ => h3
  rcases hm with h0 | ⟨hw, c, u, rfl, h1, h2⟩ | ⟨c, u, rfl, h1, h2, h3⟩
  · obtain ⟨ha, hb, hc⟩ := h.juxtaposed h0
    obtain ⟨c, u, rfl, hcu⟩ := (ht h0).first
    subst h0 hb
    have : isBlank c = false ∧ c ≠ '=' := by
      rcases hcu with hcu | hcu
      · exact startSym_cases hcu
      · exact nameStart_cases hcu
    exact .blank h.blanks1 ha this.1 (fun h => absurd h this.2)
  · exact .blank h.blanks1 (h.word hw).1 h1 (fun h => absurd h h2)
  · refine .op h.blanks1 h1 h2 ?_
    intro hc
    have := h3 hc
    cases u with
    | nil => cases this
    | cons d u => exact this

theorem form_joins {l : Nat} {w1 op o w2 t s : Str} (h : Sep l w1 op w2 t) (ho : OpForm op o) (ht : op = [] → Opens t) :
    Joins (w1 ++ (o ++ (w2 ++ (t ++ s)))) := by
  cases ho with
  | same => exact sep_joins h ht
  | notIn _ _ => exact .blank h.blanks1 (h.word rfl).1 rfl (fun h => absurd h (by decide))
  | isNot _ _ => exact .blank h.blanks1 (h.word rfl).1 rfl (fun h => absurd h (by decide))

theorem literal_name {n : Str} (h : n = s!!"True" ∨ n = s!!"False" ∨ n = s!!"None") : Name n := by
  rcases h with rfl | rfl | rfl
  · exact ⟨⟨_, _, rfl, rfl, by decide⟩, by decide, by decide⟩
  · exact ⟨⟨_, _, rfl, rfl, by decide⟩, by decide, by decide⟩
  · exact ⟨⟨_, _, rfl, rfl, by decide⟩, by decide, by decide⟩

/-- Beginnings of negations. -/
def OpensNot (t : Str) : Prop := ∃ c s, t = s!!"not" ++ c :: s ∧ isBlank c = true

mutual
theorem written_opens : ∀ {l : Nat} {t : Str} {e : Expr}, Written M names l t e →
    Opens t ∨ (12 ≤ l ∧ OpensNot t)
  | _, _, _, .number h => by
    obtain ⟨d, x, ⟨ds, hne, hd, ht⟩, _, rfl⟩ := h
    cases ds with
    | nil => exact absurd rfl hne
    | cons c ds =>
      have hc : startSym c = true := by simp [startSym, hd c (by simp)]
      rcases ht with rfl | ⟨fs, _, rfl⟩
      · exact .inl (.sym c _ rfl hc)
      · exact .inl (.sym c _ rfl hc)
  | _, _, _, .true => .inl (.word (s!!"True") [] rfl (literal_name (.inl rfl)) .nil)
  | _, _, _, .false => .inl (.word (s!!"False") [] rfl (literal_name (.inr (.inl rfl))) .nil)
  | _, _, _, .none => .inl (.word (s!!"None") [] rfl (literal_name (.inr (.inr rfl))) .nil)
  | _, _, _, .string h _ => by
    rcases h with rfl | rfl <;> exact .inl (.sym _ _ rfl rfl)
  | _, _, _, .raw h _ _ => by
    have hr : Name (s!!"r") := ⟨⟨'r', [], rfl, by decide, by decide⟩, by decide, by decide⟩
    rcases h with rfl | rfl <;> exact .inl (.word (s!!"r") _ rfl hr (.sym rfl rfl (by decide)))
  | _, _, _, .var h => .inl (.word _ [] (by simp) h.toName .nil)
  | _, _, _, .dollar _ => .inl (.sym _ _ rfl rfl)
  | _, _, _, .tag _ => .inl (.sym _ _ rfl rfl)
  | _, _, _, .paren _ _ _ => .inl (.sym _ _ rfl rfl)
  | _, _, _, .list _ _ _ => .inl (.sym _ _ rfl rfl)
  | _, _, _, .unit _ => .inl (.sym _ _ rfl rfl)
  | _, _, _, .tuple _ _ _ _ => .inl (.sym _ _ rfl rfl)
  | _, _, _, .set _ _ _ _ => .inl (.sym _ _ rfl rfl)
  | _, _, _, .dict _ _ _ => .inl (.sym _ _ rfl rfl)
  | _, _, _, .tails h h' _ _ => by
    rcases written_opens h with h | ⟨h, _⟩
    · exact .inl ((h.append (tails_joins h')).append (qualText_joins _))
    · omega
  | _, _, _, .qualified h _ => by
    rcases written_opens h with h | ⟨h, _⟩
    · exact .inl (h.append (qualText_joins _))
    · omega
  | _, _, _, .up h _ => by
    rcases written_opens h with h | ⟨h, h'⟩
    · exact .inl h
    · exact .inr ⟨by omega, h'⟩
  | _, _, _, .chain h h' _ => by
    rcases written_opens h with h | ⟨h, h2⟩
    · exact .inl (h.append (chain_joins h'))
    · refine .inr ⟨by omega, ?_⟩
      obtain ⟨c, s, rfl, hc⟩ := h2
      exact ⟨c, s ++ _, by simp; rfl, hc⟩
  | _, _, _, .minus _ _ _ => .inl (.sym _ _ rfl rfl)
  | _, _, _, .pipeline h h' _ => by
    rcases written_opens h with h | ⟨h, _⟩
    · exact .inl (h.append (filters_joins h'))
    · omega
  | _, _, _, .nots h _ => by
    refine .inr ⟨by omega, ?_⟩
    cases h with
    | cons hw hne _ =>
      rename_i w t h
      cases w with
      | nil => exact absurd rfl hne
      | cons c w =>
        refine ⟨c, _, by simp; rfl, ?_⟩
        rcases hw c (by simp) with rfl | rfl <;> rfl
  | _, _, _, .ifOnly h h1 h2 _ _ _ => by
    rcases written_opens h with h | ⟨h, h3⟩
    · exact .inl (h.append (.blank h1 h2 rfl (fun h => absurd h (by decide))))
    · refine .inr ⟨by omega, ?_⟩
      obtain ⟨c, s, rfl, hc⟩ := h3
      exact ⟨c, s ++ _, by simp; rfl, hc⟩
  | _, _, _, .ifElse h h1 h2 _ _ _ _ _ _ _ _ => by
    rcases written_opens h with h | ⟨h, h3⟩
    · exact .inl (h.append (.blank h1 h2 rfl (fun h => absurd h (by decide))))
    · refine .inr ⟨by omega, ?_⟩
      obtain ⟨c, s, rfl, hc⟩ := h3
      exact ⟨c, s ++ _, by simp; rfl, hc⟩
theorem chain_joins : ∀ {l : Nat} {t : Str} {os : List Str} {es : List Expr}, Chain M names l t os es → Joins t
  | _, _, _, _, .nil => .nil
  | _, _, _, _, .cons hs ho h _ => by
    refine form_joins hs ho ?_
    intro hop
    rcases written_opens h with h | ⟨h, _⟩
    · exact h
    · exfalso
      have hm := hs.mem
      rw [hop] at hm
      have : ∀ l, l < 15 → 12 < l → ([] : Str) ∉ binOps l := by decide
      exact this _ (binOps_lt hm) (by omega) hm
end

theorem number_no_minus {t : Str} (h : IsNumber t) : t.head? ≠ some '-' := by
  obtain ⟨d, x, ⟨ds, hne, hd, ht⟩, _, rfl⟩ := h
  cases ds with
  | nil => exact absurd rfl hne
  | cons c ds =>
    have hc := hd c (by simp)
    have : (d ++ x).head? = some c := by rcases ht with rfl | ⟨fs, _, rfl⟩ <;> rfl
    rw [this]
    simp only [ne_eq, Option.some.injEq]
    intro h; subst h; revert hc; decide

theorem opens_no_minus {t t' : Str} (h2 : Opens t) (h1 : t.head? ≠ some '-') :
    (t ++ t').head? ≠ some '-' := by
  obtain ⟨c, s, rfl, _⟩ := h2.first
  simpa using h1

set_option maxHeartbeats 2000000 in
/-- Tight expressions do not begin with a minus. -/
theorem written_no_minus : ∀ {l : Nat} {t : Str} {e : Expr}, Written M names l t e → l ≤ 3 →
    t.head? ≠ some '-'
  | _, t, _, .number h, _ => number_no_minus h
  | _, _, _, .true, _ => by simp
  | _, _, _, .false, _ => by simp
  | _, _, _, .none, _ => by simp
  | _, _, _, .string h _, _ => by rcases h with rfl | rfl <;> simp
  | _, _, _, .raw _ _ _, _ => by simp
  | _, _, _, .var h, _ => by
    obtain ⟨c, s, rfl, hc, _⟩ := h.start
    simp only [List.head?_cons, ne_eq, Option.some.injEq]
    intro h; subst h; revert hc; decide
  | _, _, _, .dollar _, _ => by simp
  | _, _, _, .tag _, _ => by simp
  | _, _, _, .paren _ _ _, _ => by simp
  | _, _, _, .list _ _ _, _ => by simp
  | _, _, _, .unit _, _ => by simp
  | _, _, _, .tuple _ _ _ _, _ => by simp
  | _, _, _, .set _ _ _ _, _ => by simp
  | _, _, _, .dict _ _ _, _ => by simp
  | _, _, _, .tails h _ _ _, hl => by
    have h1 := written_no_minus h (by omega)
    rcases written_opens h with h2 | ⟨h2, _⟩
    · rw [List.append_assoc]; exact opens_no_minus h2 h1
    · omega
  | _, _, _, .qualified h _, hl => by
    have h1 := written_no_minus h (by omega)
    rcases written_opens h with h2 | ⟨h2, _⟩
    · exact opens_no_minus h2 h1
    · omega
  | _, _, _, .up h _, hl => written_no_minus h (by omega)
  | _, _, _, .chain h _ _, hl => by
    have h1 := written_no_minus h (by omega)
    rcases written_opens h with h2 | ⟨h2, _⟩
    · exact opens_no_minus h2 h1
    · omega

end
end Verif
