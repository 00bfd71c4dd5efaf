import Verif.Lemmas.Trailers

/-! Operators: from one level to the next one. -/

namespace Verif
open Py Spec

/-- The rule of each level. -/
def lvlNT : Nat → NT
  | 1 => .factor
  | 2 => .pow_expr
  | 3 => .term
  | 4 => .arith_expr
  | 5 => .shift_expr
  | 6 => .and_expr
  | 7 => .xor_expr
  | 8 => .or_expr
  | 9 => .pipeline
  | 10 => .concat_expr
  | 11 => .comparison
  | 12 => .not_test
  | 13 => .and_test
  | 14 => .or_test
  | 15 => .ifelse_test
  | _ => .atom

/-- Levels of binary operators. -/
def isChain (l : Nat) : Bool := [2, 3, 4, 5, 6, 7, 8, 10, 11, 13, 14].elem l

/-- An operator and an operand. -/
def contPeg : Nat → Peg NT
  | 2 => .seq [.ref .ws, .ref .op_power, .ref .ws, .ref .factor]
  | 3 => .seq [.ref .ws, .ref .op_multiplic, .ref .ws, .ref .pow_expr]
  | 4 => .seq [.ref .ws, .ref .op_additive, .ref .ws, .ref .term]
  | 5 => .seq [.ref .ws, .ref .op_shift, .ref .ws, .ref .arith_expr]
  | 6 => .seq [.ref .ws, .lit (s!!"&"), .ref .ws, .ref .shift_expr]
  | 7 => .seq [.ref .ws, .lit (s!!"^"), .ref .ws, .ref .and_expr]
  | 8 => .seq [.ref .ws, .lit (s!!"|"), .ref .ws, .ref .xor_expr]
  | 10 => .seq [.ref .space, .ref .pipeline]
  | 11 => .seq [.ref .ws, .ref .op_comp, .ref .ws, .ref .concat_expr]
  | 13 => .seq [.ref .space, .lit (s!!"and"), .ref .space, .ref .not_test]
  | 14 => .seq [.ref .space, .lit (s!!"or"), .ref .space, .ref .and_test]
  | _ => .lit []

section
variable {M : Marks} {U : Uni} {P : Type} {names : Str → Option Char} {full : Str} {k : Nat}

local notation "Bd" => Builds M U P names full
local notation "Bq" => BuildsSeq M U P names full
local notation "Bs" => BuildsStar M U P names full
local notation "Fl" => Fails (rule M U)
local notation "Fq" => FailsSeq (rule M U)

/-- The node of an operator, if there is one. -/
def opB (l : Nat) (o : Str) : List (Built P) :=
  match l with
  | 2 | 3 | 4 | 5 | 11 => [.op o]
  | _ => []

/-- The nodes of operators and operands. -/
def chainB (l : Nat) : List Str → List Expr → List (Built P)
  | o :: os, e :: es => opB l o ++ bx e :: chainB l os es
  | _, _ => []

theorem NoQual.chain (l : Nat) : ∀ (os : List Str) (es : List Expr), NoQual (chainB (P := P) l os es)
  | [], _ => by unfold chainB; exact .nil
  | _ :: _, [] => by unfold chainB; exact .nil
  | o :: os, e :: es => by
    unfold chainB
    refine .append ?_ (.cons (by simp [Verif.bx]) (.chain l os es))
    unfold opB
    split <;> first | exact .nil | exact .cons (by simp) .nil

theorem asChain_chainB {l : Nat} (hl : l = 2 ∨ l = 3 ∨ l = 4 ∨ l = 5 ∨ l = 11) :
    ∀ (os : List Str) (es : List Expr), os.length = es.length → asChain (P := P) (chainB l os es) = .ok (os, es)
  | [], [], _ => rfl
  | o :: os, e :: es, h => by
    have ih := asChain_chainB hl os es (by simpa using h)
    have : opB (P := P) l o = [.op o] := by rcases hl with rfl | rfl | rfl | rfl | rfl <;> rfl
    simp only [chainB, this, bx, List.cons_append, List.nil_append, asChain]
    rw [ih]; rfl

theorem chainB_exprs {l : Nat} (hl : l = 6 ∨ l = 7 ∨ l = 8 ∨ l = 10 ∨ l = 13 ∨ l = 14) :
    ∀ (os : List Str) (es : List Expr), os.length = es.length → chainB (P := P) l os es = es.map bx
  | [], [], _ => rfl
  | o :: os, e :: es, h => by
    have ih := chainB_exprs hl os es (by simpa using h)
    have : opB (P := P) l o = [] := by rcases hl with rfl | rfl | rfl | rfl | rfl | rfl <;> rfl
    simp only [chainB, this, List.nil_append, List.map_cons, ih]

theorem contPeg_fails {l : Nat} (hl : isChain l = true) {rest : Str} (h : After M U l rest) : Fl (contPeg l) rest := by
  simp only [isChain, List.elem_eq_mem, List.mem_cons, List.not_mem_nil, or_false, decide_eq_true_eq] at hl
  rcases hl with rfl | rfl | rfl | rfl | rfl | rfl | rfl | rfl | rfl | rfl | rfl
  · exact h.stops 2 (by omega) _ (.head _)
  · exact h.stops 3 (by omega) _ (.head _)
  · exact h.stops 4 (by omega) _ (.head _)
  · exact h.stops 5 (by omega) _ (.head _)
  · exact h.stops 6 (by omega) _ (.head _)
  · exact h.stops 7 (by omega) _ (.head _)
  · exact h.stops 8 (by omega) _ (.head _)
  · exact h.stops 10 (by omega) _ (.head _)
  · exact h.stops 11 (by omega) _ (.head _)
  · exact h.stops 13 (by omega) _ (.head _)
  · exact h.stops 14 (by omega) _ (.head _)

theorem sep_chain {l : Nat} {w1 op w2 t : Str} (h : Sep l w1 op w2 t) : isChain l = true := by
  have hm := h.mem
  have : ∀ l, l < 15 → ∀ op ∈ binOps l, isChain l = true := by decide
  exact this l (binOps_lt hm) op hm

theorem manyRests_tail {p : Char → Bool} {w s : Str} (hs : inClass p s.head? = false) :
    ∀ r ∈ manyRests p (w ++ s), ∃ v, v <:+ w ∧ r = v ++ s := by
  induction w with
  | nil =>
    intro r hr
    cases s with
    | nil => simp only [List.nil_append, manyRests, List.mem_singleton] at hr; exact ⟨[], List.suffix_refl _, hr⟩
    | cons c s =>
      simp only [List.head?_cons, inClass] at hs
      simp only [List.nil_append, manyRests, hs, Bool.false_eq_true, if_false, List.mem_singleton] at hr
      exact ⟨[], List.suffix_refl _, hr⟩
  | cons c w ih =>
    intro r hr
    simp only [List.cons_append, manyRests] at hr
    split at hr
    · rcases List.mem_append.1 hr with hr | hr
      · obtain ⟨v, h1, h2⟩ := ih r hr
        exact ⟨v, h1.trans (List.suffix_cons _ _), h2⟩
      · simp only [List.mem_singleton] at hr
        exact ⟨c :: w, List.suffix_refl _, hr⟩
    · simp only [List.mem_singleton] at hr
      exact ⟨c :: w, List.suffix_refl _, hr⟩

theorem word_none {x s : Str} (h : ¬ x <+: s) : (RE.word x).rests s = [] := by
  have hp : x.isPrefixOf s = false := by
    cases hp : x.isPrefixOf s with
    | false => rfl
    | true => exact absurd (by simpa using hp) h
  have := RE.match?_word_none hp
  simpa [RE.match?] using this

/-- `is` is not the beginning of `is not`. -/
theorem is_not_none {w s : Str} (hw : Blanks w) (hb : inClass isSpace s.head? = false) (hn : ¬ s!!"not" <+: s) :
    (RE.seq (RE.many1 isSpace) (RE.word (s!!"not"))).match? (w ++ s) = none := by
  have key : ∀ v, v <:+ w → (RE.word (s!!"not")).rests (v ++ s) = [] := by
    intro v hv
    refine word_none ?_
    cases v with
    | nil => exact hn
    | cons c v =>
      rintro ⟨u, hu⟩
      simp only [List.cons_append, List.cons.injEq] at hu
      rcases hw c (hv.subset (by simp)) with h | h <;> rw [h] at hu <;> exact absurd hu.1 (by decide)
  have h0 : (RE.seq (RE.many1 isSpace) (RE.word (s!!"not"))).rests (w ++ s) = [] := by
    simp only [RE.rests, RE.many1, List.flatMap_eq_nil_iff]
    intro r hr
    simp only [List.mem_flatMap] at hr
    obtain ⟨m, hm, hr⟩ := hr
    cases w with
    | nil =>
      cases s with
      | nil => simp [RE.rests] at hm
      | cons c s =>
        simp only [List.head?_cons, inClass] at hb
        simp [RE.rests, hb] at hm
    | cons c w =>
      simp only [List.cons_append, RE.rests] at hm
      split at hm
      · simp only [List.mem_singleton] at hm
        subst hm
        obtain ⟨v, h1, h2⟩ := manyRests_tail hb r hr
        rw [h2]
        exact key v (h1.trans (List.suffix_cons _ _))
      · simp at hm
  rw [RE.match?, h0]; rfl

theorem first_not_space {c : Char} (h : startSym c = true ∨ nameStart c = true) : isSpace c = false := by
  have key : (33 ≤ c.toNat ∧ c.toNat ≤ 126) ∨ c.toNat = 0x130 ∨ c.toNat = 0x131 ∨ c.toNat = 0x17F ∨ c.toNat = 0x212A := by
    rcases h with h | h
    · simp only [startSym, Bool.or_eq_true, List.elem_eq_mem, List.mem_cons, List.not_mem_nil, or_false,
        decide_eq_true_eq] at h
      rcases h with h | h
      · rcases h with h | h | h | h | h | h | h | h <;> rw [h] <;> decide
      · simp only [ascDigit, Bool.and_eq_true, decide_eq_true_eq] at h
        omega
    · simp only [nameStart, azI, Bool.or_eq_true, Bool.and_eq_true, decide_eq_true_eq, beq_iff_eq] at h
      rcases h with h | h
      · omega
      · rw [h]; decide
  simp only [isSpace, Bool.or_eq_false_iff, Bool.and_eq_false_iff, decide_eq_false_iff_not, beq_eq_false_iff_ne]
  omega

theorem alts_skip {r r' : RE} {rs : List RE} {s : Str} (h : r.match? s = none) :
    (RE.alts (r :: r' :: rs)).match? s = (RE.alts (r' :: rs)).match? s := RE.match?_right h

theorem alts_take {r r' : RE} {rs : List RE} {s m : Str} (h : r.match? s = some m) :
    (RE.alts (r :: r' :: rs)).match? s = some m := RE.match?_left h

theorem word_seq {x s : Str} {b : RE} : (RE.seq (RE.word x) b).match? (x ++ s) = b.match? s := by
  have : (RE.word x).rests (x ++ s) = [s] := by
    induction x with
    | nil => rfl
    | cons c x ih => simp [RE.word, RE.rests, ih]
  simp [RE.match?, RE.rests, this]

theorem prefix_name {l n rest : Str} (hl : ∀ c ∈ l, nameChar c = true) (he : NameEnd rest) (hp : l <+: n ++ rest) :
    l <+: n := by
  by_cases hlen : l.length ≤ n.length
  · exact List.prefix_of_prefix_length_le hp (List.prefix_append _ _) hlen
  · exfalso
    have hnl : n <+: l := List.prefix_of_prefix_length_le (List.prefix_append _ _) hp (by omega)
    obtain ⟨m, rfl⟩ := hnl
    cases m with
    | nil => simp at hlen
    | cons c m =>
      have : (c :: m) <+: rest := by
        obtain ⟨u, hu⟩ := hp
        exact ⟨u, by simpa using hu⟩
      obtain ⟨u, rfl⟩ := this
      have h1 := he c rfl
      have h2 := hl c (by simp)
      rw [h1] at h2; cases h2

/-- `s.split()` drops blanks before a word. -/
theorem wordsAux_blanks {w s : Str} (hw : Blanks w) : wordsAux [] (w ++ s) = wordsAux [] s := by
  induction w with
  | nil => rfl
  | cons c w ih =>
    have hc : isSpace c = true := by rcases hw c (by simp) with rfl | rfl <;> decide
    rw [List.cons_append, wordsAux, if_pos hc, if_pos rfl, ih (fun d hd => hw d (by simp [hd]))]

theorem form_name {op o : Str} (h : OpForm op o) (hn : operatorName op = op) : operatorName o = op := by
  cases h with
  | same => exact hn
  | @notIn w hw hne =>
    obtain ⟨c, w, rfl⟩ : ∃ c v, w = c :: v := by cases w with | nil => exact absurd rfl hne | cons c v => exact ⟨c, v, rfl⟩
    have hc : isSpace c = true := by rcases hw c (by simp) with rfl | rfl <;> decide
    have : wordsAux [] (s!!"not" ++ (c :: w ++ s!!"in")) = s!!"not" :: wordsAux [] (w ++ s!!"in") := by
      simp [wordsAux, hc, show isSpace 'n' = false by decide, show isSpace 'o' = false by decide, show isSpace 't' = false by decide]
    rw [operatorName, this, wordsAux_blanks (fun d hd => hw d (by simp [hd]))]
    decide
  | @isNot w hw hne =>
    obtain ⟨c, w, rfl⟩ : ∃ c v, w = c :: v := by cases w with | nil => exact absurd rfl hne | cons c v => exact ⟨c, v, rfl⟩
    have hc : isSpace c = true := by rcases hw c (by simp) with rfl | rfl <;> decide
    have : wordsAux [] (s!!"is" ++ (c :: w ++ s!!"not")) = s!!"is" :: wordsAux [] (w ++ s!!"not") := by
      simp [wordsAux, hc, show isSpace 'i' = false by decide, show isSpace 's' = false by decide]
    rw [operatorName, this, wordsAux_blanks (fun d hd => hw d (by simp [hd]))]
    decide

theorem form_match {op o s : Str} (h : OpForm op o) (hop : op = s!!"not in" ∨ op = s!!"is not") :
    reComp.match? (o ++ s) = some s := by
  have blanks : ∀ {w : Str}, Blanks w → ∀ c ∈ w, isSpace c = true := by
    intro w hw c hc
    rcases hw c hc with rfl | rfl <;> decide
  have go : ∀ {w : Str}, Blanks w → w ≠ [] → reComp.match? (s!!"not" ++ (w ++ s!!"in") ++ s) = some s ∧
      reComp.match? (s!!"is" ++ (w ++ s!!"not") ++ s) = some s := by
    intro w hw hne
    refine ⟨?_, ?_⟩
    · rw [List.append_assoc]
      refine (alts_skip rfl).trans ((alts_skip rfl).trans ((alts_skip rfl).trans ((alts_skip rfl).trans
        ((alts_skip rfl).trans ((alts_skip rfl).trans ((alts_skip rfl).trans (alts_take ?_)))))))
      rw [word_seq, List.append_assoc]
      exact RE.match?_seq (RE.match?_many1 (rest := s!!"in" ++ s) hne (blanks hw) rfl) (RE.match?_word _ _)
    · rw [List.append_assoc]
      refine (alts_skip rfl).trans ((alts_skip rfl).trans ((alts_skip rfl).trans ((alts_skip rfl).trans
        ((alts_skip rfl).trans ((alts_skip rfl).trans ((alts_skip rfl).trans ((alts_skip rfl).trans (alts_take ?_))))))))
      rw [word_seq, List.append_assoc]
      exact RE.match?_seq (RE.match?_many1 (rest := s!!"not" ++ s) hne (blanks hw) rfl) (RE.match?_word _ _)
  cases h with
  | notIn hw hne => exact (go hw hne).1
  | isNot hw hne => exact (go hw hne).2
  | same =>
    have := go (w := [' ']) (by simp [Blanks]) (by simp)
    rcases hop with rfl | rfl
    · exact this.1
    · exact this.2

/-- An operator with its right operand, with one blank between words. -/
theorem builds_cont' {l : Nat} {w1 op w2 t rest : Str} {e : Expr} (h : Sep (l + 1) w1 op w2 t)
    (ht : ∃ c u, t = c :: u ∧ (startSym c = true ∨ nameStart c = true))
    (hr : NameEnd rest) (hx : ∀ k, Bd k (.ref (lvlNT l)) t rest [bx e]) :
    Bd k (contPeg (l + 1)) (w1 ++ (op ++ (w2 ++ t))) rest (opB (l + 1) op ++ [bx e]) := by
  have hm := h.mem
  have hl := binOps_lt hm
  have hh : ∀ {d : Char}, operandChar d = false → (w2 ++ (t ++ rest)).head? ≠ some d := fun hd => operand_head h.blanks2 ht hd
  have hb1 := h.blanks1
  have hb2 := h.blanks2
  have htb : NoBlank (t ++ rest) := by
    obtain ⟨c, u, rfl, hc⟩ := ht
    refine .cons ?_
    rcases hc with hc | hc
    · exact (startSym_cases hc).1
    · exact (nameStart_cases hc).1
  -- the operator between blanks
  have mk : ∀ {n : NT} {o : Str} {d : Char} {o' : Str}, o = d :: o' → isBlank d = false →
      (∀ k, Bd k (.ref n) o (w2 ++ (t ++ rest)) [.op o]) → ∀ {m : NT}, (∀ k, Bd k (.ref m) t rest [bx e]) →
      Bd k (.seq [.ref .ws, .ref n, .ref .ws, .ref m]) (w1 ++ (o ++ (w2 ++ t))) rest ([.op o] ++ [bx e]) := by
    intro n o d o' ho hd hop m hx
    refine .ofSeq (.step (.ws hb1 (rest := o ++ (w2 ++ (t ++ rest))) ?_) (.step (hop _) (.step (.ws hb2 htb) (.step (hx _) (.nil _)))))
    rw [ho]; exact .cons hd
  have mkl : ∀ {o : Str} {d : Char} {o' : Str}, o = d :: o' → isBlank d = false →
      ∀ {m : NT}, (∀ k, Bd k (.ref m) t rest [bx e]) →
      Bd k (.seq [.ref .ws, .lit o, .ref .ws, .ref m]) (w1 ++ (o ++ (w2 ++ t))) rest ([] ++ [bx e]) := by
    intro o d o' ho hd m hx
    refine .ofSeq (.step (.ws hb1 (rest := o ++ (w2 ++ (t ++ rest))) ?_) (.step (.lit _ _) (.step (.ws hb2 htb) (.step (hx _) (.nil _)))))
    rw [ho]; exact .cons hd
  have mkw : ∀ {o : Str} {d : Char} {o' : Str}, o = d :: o' → isBlank d = false → w1 ≠ [] ∧ w2 ≠ [] →
      ∀ {m : NT}, (∀ k, Bd k (.ref m) t rest [bx e]) →
      Bd k (.seq [.ref .space, .lit o, .ref .space, .ref m]) (w1 ++ (o ++ (w2 ++ t))) rest ([] ++ [bx e]) := by
    intro o d o' ho hd hne m hx
    refine .ofSeq (.step (.space hb1 hne.1 (rest := o ++ (w2 ++ (t ++ rest))) ?_) (.step (.lit _ _) (.step (.space hb2 hne.2 htb)
      (.step (hx _) (.nil _)))))
    rw [ho]; exact .cons hd
  have two : ∀ {a b : Char}, operandChar b = false → Fl (.lit [a, b]) (a :: (w2 ++ (t ++ rest))) := fun hb =>
    .lit (not_prefix_two (hh hb))
  match l, hl, h, hm, hx with
  | 0, _, h, hm, _ => simp [binOps] at hm
  | 1, _, h, hm, hx =>
    simp only [binOps, List.mem_singleton] at hm
    subst hm
    exact mk rfl rfl (fun k => .plain (bs := []) (.lit _ _) rfl) hx
  | 2, _, h, hm, hx =>
    simp only [binOps, List.mem_cons, List.not_mem_nil, or_false] at hm
    rcases hm with rfl | rfl | rfl | rfl
    · exact mk rfl rfl (fun k => .plain (bs := []) (.alt (.here (.lit _ _))) rfl) hx
    · exact mk rfl rfl (fun k => .plain (bs := []) (.alt (.there (.first 200 rfl) (.there (two rfl) (.here (.lit _ _))))) rfl) hx
    · exact mk rfl rfl (fun k => .plain (bs := []) (.alt (.there (.first 200 rfl) (.here (.lit _ _)))) rfl) hx
    · exact mk rfl rfl (fun k => .plain (bs := []) (.alt (.there (.first 200 rfl) (.there (.first 200 rfl) (.there (.first 200 rfl)
        (.here (.lit _ _)))))) rfl) hx
  | 3, _, h, hm, hx =>
    simp only [binOps, List.mem_cons, List.not_mem_nil, or_false] at hm
    rcases hm with rfl | rfl
    · exact mk rfl rfl (fun k => .plain (bs := []) (.alt (.here (.lit _ _))) rfl) hx
    · exact mk rfl rfl (fun k => .plain (bs := []) (.alt (.there (.first 200 rfl) (.here (.lit _ _)))) rfl) hx
  | 4, _, h, hm, hx =>
    simp only [binOps, List.mem_cons, List.not_mem_nil, or_false] at hm
    rcases hm with rfl | rfl
    · exact mk rfl rfl (fun k => .plain (bs := []) (.alt (.here (.lit _ _))) rfl) hx
    · exact mk rfl rfl (fun k => .plain (bs := []) (.alt (.there (.first 200 rfl) (.here (.lit _ _)))) rfl) hx
  | 5, _, h, hm, hx =>
    simp only [binOps, List.mem_singleton] at hm
    subst hm
    exact mkl rfl rfl hx
  | 6, _, h, hm, hx =>
    simp only [binOps, List.mem_singleton] at hm
    subst hm
    exact mkl rfl rfl hx
  | 7, _, h, hm, hx =>
    simp only [binOps, List.mem_singleton] at hm
    subst hm
    exact mkl rfl rfl hx
  | 8, _, h, hm, _ => simp [binOps] at hm
  | 9, _, h, hm, hx =>
    simp only [binOps, List.mem_singleton] at hm
    subst hm
    obtain ⟨h1, rfl, _⟩ := h.juxtaposed rfl
    exact .ofSeq (.step (.space hb1 h1 htb) (.step (hx _) (.nil _))) (by simp) (by simp [opB])
  | 10, _, h, hm, hx =>
    have hsp : inClass isSpace (t ++ rest).head? = false := by
      obtain ⟨c, u, rfl, hc⟩ := ht
      exact first_not_space hc
    have sym : ∀ (o : Str) (d : Char) (o' : Str), o = d :: o' → isBlank d = false → operatorName o = o →
        reComp.match? (o ++ (w2 ++ (t ++ rest))) = some (w2 ++ (t ++ rest)) →
        Bd k (contPeg 11) (w1 ++ (o ++ (w2 ++ t))) rest (opB 11 o ++ [bx e]) := by
      intro o d o' ho hd hname hmt
      refine mk ho hd (fun k => .plain (bs := []) (.rx hmt) ?_) hx
      simp only [setup, setupExpr, hname]
    have w2' : ∀ {a b : Char}, operandChar b = false → (RE.word [a, b]).match? (a :: (w2 ++ (t ++ rest))) = none := fun hb =>
      RE.match?_word_none (not_prefix_two (hh hb))
    simp only [binOps, List.mem_cons, List.not_mem_nil, or_false] at hm
    rcases hm with rfl | rfl | rfl | rfl | rfl | rfl | rfl | rfl | rfl | rfl | rfl
    · exact sym _ _ _ rfl rfl (by decide) rfl
    · exact sym _ _ _ rfl rfl (by decide) rfl
    · exact sym _ _ _ rfl rfl (by decide) rfl
    · exact sym _ _ _ rfl rfl (by decide) rfl
    · exact sym _ _ _ rfl rfl (by decide) rfl
    · refine sym _ _ _ rfl rfl (by decide) ?_
      refine (alts_skip rfl).trans ((alts_skip rfl).trans ((alts_skip (w2' rfl)).trans ((alts_skip rfl).trans
        ((alts_skip (w2' rfl)).trans (alts_take ?_)))))
      exact RE.match?_word _ _
    · refine sym _ _ _ rfl rfl (by decide) ?_
      refine (alts_skip rfl).trans ((alts_skip rfl).trans ((alts_skip rfl).trans ((alts_skip (w2' rfl)).trans
        ((alts_skip rfl).trans ((alts_skip rfl).trans (alts_take ?_))))))
      exact RE.match?_word _ _
    · exact sym _ _ _ rfl rfl (by decide) rfl
    · refine sym _ _ _ rfl rfl (by decide) ?_
      refine (alts_skip rfl).trans ((alts_skip rfl).trans ((alts_skip rfl).trans ((alts_skip rfl).trans
        ((alts_skip rfl).trans ((alts_skip rfl).trans ((alts_skip rfl).trans ((alts_skip rfl).trans
        ((alts_skip ?_).trans ((alts_skip rfl).trans (RE.match?_word _ _))))))))))
      rw [word_seq]
      refine is_not_none hb2 hsp ?_
      intro hp
      exact h.isnot rfl (prefix_name (by decide) hr hp)
    · exact sym _ _ _ rfl rfl (by decide) rfl
    · exact sym _ _ _ rfl rfl (by decide) rfl
  | 11, _, h, hm, _ => simp [binOps] at hm
  | 12, _, h, hm, hx =>
    simp only [binOps, List.mem_singleton] at hm
    subst hm
    exact mkw rfl rfl (h.word rfl) hx
  | 13, _, h, hm, hx =>
    simp only [binOps, List.mem_singleton] at hm
    subst hm
    exact mkw rfl rfl (h.word rfl) hx

/-- An operator with its right operand. -/
theorem builds_cont {l : Nat} {w1 op o w2 t rest : Str} {e : Expr} (h : Sep (l + 1) w1 op w2 t) (ho : OpForm op o)
    (ht : ∃ c u, t = c :: u ∧ (startSym c = true ∨ nameStart c = true))
    (hr : NameEnd rest) (hx : ∀ k, Bd k (.ref (lvlNT l)) t rest [bx e]) :
    Bd k (contPeg (l + 1)) (w1 ++ (o ++ (w2 ++ t))) rest (opB (l + 1) op ++ [bx e]) := by
  have htb : NoBlank (t ++ rest) := by
    obtain ⟨c, u, rfl, hc⟩ := ht
    refine .cons ?_
    rcases hc with hc | hc
    · exact (startSym_cases hc).1
    · exact (nameStart_cases hc).1
  have two : ∀ {d : Char} {o' : Str}, o = d :: o' → isBlank d = false → op = s!!"not in" ∨ op = s!!"is not" →
      Bd k (contPeg (l + 1)) (w1 ++ (o ++ (w2 ++ t))) rest (opB (l + 1) op ++ [bx e]) := by
    intro d o' hd hb hop
    have hl := two_words h.mem hop
    obtain rfl : l = 10 := by omega
    have hname : operatorName o = op := form_name ho (by rcases hop with rfl | rfl <;> decide)
    have hc : ∀ k, Bd k (.ref .op_comp) o (w2 ++ (t ++ rest)) [.op op] := by
      intro k
      refine .plain (bs := []) (.rx (form_match ho hop)) ?_
      simp only [setup, setupExpr, hname]
    have : Bd k (.seq [.ref .ws, .ref .op_comp, .ref .ws, .ref (lvlNT 10)]) (w1 ++ (o ++ (w2 ++ t))) rest ([.op op] ++ [bx e]) := by
      refine .ofSeq (.step (.ws h.blanks1 (rest := o ++ (w2 ++ (t ++ rest))) ?_) (.step (hc _) (.step (.ws h.blanks2 htb) (.step (hx _) (.nil _)))))
      rw [hd]; exact .cons hb
    exact this
  cases ho with
  | same => exact builds_cont' h ht hr hx
  | notIn _ _ => exact two rfl (by decide) (.inl rfl)
  | isNot _ _ => exact two rfl (by decide) (.inr rfl)

/-! Levels -/

theorem After.nameEnd {l : Nat} {rest : Str} (h : After M U l rest) : NameEnd rest := by
  intro c hc
  have := h.ends c hc
  simp only [endChar, Bool.and_eq_true, Bool.not_eq_true'] at this
  exact this.1.1

theorem After.apart {l : Nat} {t rest : Str} (h : After M U l rest) : Apart U t rest := by
  refine ⟨?_, ?_⟩
  · intro c hc
    have := h.ends c hc
    simp only [endChar, Bool.and_eq_true, Bool.not_eq_true', List.elem_eq_mem, decide_eq_false_iff_not, List.mem_cons,
      List.not_mem_nil, or_false, not_or] at this
    exact ⟨this.1.1, this.1.2, this.2.1, this.2.2.1⟩
  · intro _ _ _ hc
    have := h.ends _ hc
    revert this
    simp [endChar]

/-- The end of an expression of level `l`. -/
def Ends (M : Marks) (U : Uni) : Nat → Str → Str → Prop
  | 0, t, rest => Apart U t rest
  | l + 1, _, rest => After M U (l + 1) rest

theorem After.toEnds {l l' : Nat} {t rest : Str} (h : After M U l rest) (hl : l' ≤ l) : Ends M U l' t rest := by
  cases l' with
  | zero => exact h.apart
  | succ l' => exact h.mono hl

variable (M U P names full) in
/-- `t` is read as `e`. -/
def Reads (l : Nat) (t : Str) (e : Expr) : Prop :=
  ∀ k rest, Ends M U l t rest → Builds M U P names full k (.ref (lvlNT l)) t rest [bx e]

local notation "Rd" => Reads M U P names full

theorem not_nots {t rest : Str} (h : Opens t) (hr : NameEnd rest) :
    Fl (.seq [.ref .not, .ref .space]) (t ++ rest) := by
  cases h with
  | sym c s ht hc =>
    rw [ht]
    refine .seq1 (.ref (.lit1 ?_))
    rintro rfl
    revert hc; decide
  | word n r ht hn hj =>
    have he : NameEnd (r ++ rest) := by
      cases r with
      | nil => exact hr
      | cons c r => intro d hd; exact hj.ends d hd
    subst ht
    rw [List.append_assoc]
    by_cases hp : s!!"not" <+: n
    · obtain ⟨m, rfl⟩ := hp
      cases m with
      | nil => exact absurd (by decide) hn.notReserved
      | cons c m =>
        rw [List.append_assoc]
        refine .seq2 (x := s!!"not") ⟨_, .ref (.lit _ _)⟩ (.space ?_)
        refine .cons ?_
        have hc := hn.chars c (by simp)
        cases hb : isBlank c with
        | false => rfl
        | true =>
          simp only [isBlank, Bool.or_eq_true, beq_iff_eq] at hb
          rcases hb with rfl | rfl <;> revert hc <;> decide
    · exact .seq1 (.ref (lit_fails_name (by decide) hp he))

theorem written_noBlank {l : Nat} {t s : Str} {e : Expr} (h : Written M names l t e) : NoBlank (t ++ s) := by
  obtain ⟨c, u, rfl, hc⟩ := written_first h
  refine .cons ?_
  rcases hc with hc | hc
  · exact (startSym_cases hc).1
  · exact (nameStart_cases hc).1

theorem no_qualifier {l : Nat} {rest : Str} (h : After M U l rest) : Fl (.ref .qualifier) rest := by
  refine .ref (.rx ?_)
  cases rest with
  | nil => rfl
  | cons c s =>
    have := h.ends c rfl
    have h1 : c ≠ '?' := by rintro rfl; revert this; simp [endChar]
    have h2 : c ≠ '!' := by rintro rfl; revert this; simp [endChar]
    simp [RE.match?, reQualifier, RE.rests, h1, h2]

theorem no_neg {t rest : Str} (h : t ≠ []) (h' : t.head? ≠ some '-') : Fl (.ref .neg) (t ++ rest) := by
  cases t with
  | nil => exact absurd rfl h
  | cons c t => exact .ref (.lit1 (by simpa using h'))

theorem reads_up {l : Nat} {t : Str} {e : Expr} (hw : Written M names l t e) (hl : l < 15) (h : Rd l t e) :
    Rd (l + 1) t e := by
  intro k rest ha
  have ha : After M U (l + 1) rest := ha
  have ha' := ha.toEnds (l' := l) (t := t) (by omega)
  have hne : t ≠ [] := by obtain ⟨c, u, rfl, _⟩ := written_first hw; simp
  have chain : ∀ (n m : NT), isCompact n = true → isChain (l + 1) = true →
      rule M U n = .seq [.ref m, .star (contPeg (l + 1))] → (∀ k, Bd k (.ref m) t rest [bx e]) →
      Bd k (.ref n) t rest [bx e] := by
    intro n m hn hc hr hx
    refine .single hn ?_
    rw [hr]
    exact .ofSeq (.step (hx _) (.step (.star (.nil (contPeg_fails hc ha))) (.nil _)))
  match l, hl, h, ha, ha', hw, chain with
  | 0, _, h, ha, ha', hw, _ =>
    refine .single rfl ?_
    exact .ofSeq (.step (h _ _ ha') (.step (.star (.nil (ha.stops 1 (by omega) _ (.head _))))
      (.step (.opt_none (no_qualifier ha)) (.nil _))))
  | 1, _, h, ha, ha', hw, chain => exact chain .pow_expr .factor rfl rfl rfl (fun k => h k rest ha')
  | 2, _, h, ha, ha', hw, chain => exact chain .term .pow_expr rfl rfl rfl (fun k => h k rest ha')
  | 3, _, h, ha, ha', hw, _ =>
    refine .single rfl ?_
    exact .ofSeq (.step (x := []) (r := t ++ rest) (.opt_none (no_neg hne (written_no_minus hw (by omega))))
      (.step (x := []) (r := t ++ rest) (.ws .nil (written_noBlank hw)) (.step (h _ _ ha') (.step (.star (.nil (contPeg_fails (l := 4) rfl ha))) (.nil _)))))
  | 4, _, h, ha, ha', hw, chain => exact chain .shift_expr .arith_expr rfl rfl rfl (fun k => h k rest ha')
  | 5, _, h, ha, ha', hw, chain => exact chain .and_expr .shift_expr rfl rfl rfl (fun k => h k rest ha')
  | 6, _, h, ha, ha', hw, chain => exact chain .xor_expr .and_expr rfl rfl rfl (fun k => h k rest ha')
  | 7, _, h, ha, ha', hw, chain => exact chain .or_expr .xor_expr rfl rfl rfl (fun k => h k rest ha')
  | 8, _, h, ha, ha', hw, _ =>
    refine .single rfl ?_
    exact .ofSeq (.step (h _ _ ha') (.step (.star (.nil (ha.stops 9 (by omega) _ (.head _)))) (.nil _)))
  | 9, _, h, ha, ha', hw, chain => exact chain .concat_expr .pipeline rfl rfl rfl (fun k => h k rest ha')
  | 10, _, h, ha, ha', hw, chain => exact chain .comparison .concat_expr rfl rfl rfl (fun k => h k rest ha')
  | 11, _, h, ha, ha', hw, _ =>
    have ho : Opens t := by
      rcases written_opens hw with h | ⟨h, _⟩
      · exact h
      · omega
    refine .single rfl ?_
    exact .ofSeq (.step (.star (.nil (not_nots ho ha.nameEnd))) (.step (h _ _ ha') (.nil _)))
  | 12, _, h, ha, ha', hw, chain => exact chain .and_test .not_test rfl rfl rfl (fun k => h k rest ha')
  | 13, _, h, ha, ha', hw, chain => exact chain .or_test .and_test rfl rfl rfl (fun k => h k rest ha')
  | 14, _, h, ha, ha', hw, _ =>
    refine .single rfl ?_
    exact .ofSeq (.step (h _ _ ha') (.step (.opt_none (ha.stops 15 (by omega) _ (.head _))) (.nil _)))

/-- The setup of a chain. -/
theorem setup_chain {l : Nat} {text : Str} {h : Expr} {os : List Str} {es : List Expr} (hl : isChain l = true)
    (hlen : os.length = es.length) :
    setup (P := P) names full (lvlNT l) k text (attachQuals (bx h :: chainB l os es)) = .ok (bx (combine l h os es)) := by
  rw [attachQuals_id (.cons (by simp [bx]) (.chain l os es))]
  simp only [isChain, List.elem_eq_mem, List.mem_cons, List.not_mem_nil, or_false, decide_eq_true_eq] at hl
  rcases hl with rfl | rfl | rfl | rfl | rfl | rfl | rfl | rfl | rfl | rfl | rfl
  · simp only [lvlNT, setup, setupExpr, bx, asChain_chainB (l := 2) (by simp) os es hlen]; rfl
  · simp only [lvlNT, setup, setupExpr, bx, asChain_chainB (l := 3) (by simp) os es hlen]; rfl
  · simp only [lvlNT, setup, setupExpr, bx, asChain_chainB (l := 4) (by simp) os es hlen]; rfl
  · simp only [lvlNT, setup, setupExpr, bx, asChain_chainB (l := 5) (by simp) os es hlen]; rfl
  · rw [chainB_exprs (by simp) os es hlen]; simp only [lvlNT, setup, setupExpr]; rw [bx]; simp only [asExprs_bx]; rfl
  · rw [chainB_exprs (by simp) os es hlen]; simp only [lvlNT, setup, setupExpr]; rw [bx]; simp only [asExprs_bx]; rfl
  · rw [chainB_exprs (by simp) os es hlen]; simp only [lvlNT, setup, setupExpr]; rw [bx]; simp only [asExprs_bx]; rfl
  · rw [chainB_exprs (by simp) os es hlen]
    simp only [lvlNT, setup, setupExpr]
    have := asExprs_bx (P := P) (h :: es)
    simp only [List.map_cons] at this
    rw [this]; rfl
  · simp only [lvlNT, setup, setupExpr, bx, asChain_chainB (l := 11) (by simp) os es hlen]; rfl
  · rw [chainB_exprs (by simp) os es hlen]; simp only [lvlNT, setup, setupExpr]; rw [bx]; simp only [asExprs_bx]; rfl
  · rw [chainB_exprs (by simp) os es hlen]; simp only [lvlNT, setup, setupExpr]; rw [bx]; simp only [asExprs_bx]; rfl

theorem chainB_ne {l : Nat} {os : List Str} {es : List Expr} (hne : os ≠ []) (hlen : os.length = es.length) :
    (bx (P := P) h :: chainB l os es).length ≠ 1 := by
  cases os with
  | nil => exact absurd rfl hne
  | cons o os =>
    cases es with
    | nil => simp at hlen
    | cons e es => simp [chainB]

theorem reads_chain {l : Nat} {t t' rest : Str} {h : Expr} {os : List Str} {es : List Expr} (hw : Written M names l t h)
    (hl : isChain (l + 1) = true) (hne : os ≠ []) (hlen : os.length = es.length)
    (h1 : ∀ k, Bd k (.ref (lvlNT l)) t (t' ++ rest) [bx h])
    (h2 : ∀ k, Bs k (contPeg (l + 1)) t' rest (chainB (l + 1) os es)) :
    Bd k (.ref (lvlNT (l + 1))) (t ++ t') rest [bx (combine (l + 1) h os es)] := by
  have hcp : isCompact (lvlNT (l + 1)) = true := by
    simp only [isChain, List.elem_eq_mem, List.mem_cons, List.not_mem_nil, or_false, decide_eq_true_eq] at hl
    rcases hl with h | h | h | h | h | h | h | h | h | h | h <;> rw [h] <;> rfl
  refine .several hcp (bs := bx h :: chainB (l + 1) os es) ?_ (chainB_ne hne hlen) (setup_chain hl hlen)
  have hsimple : rule M U (lvlNT (l + 1)) = .seq [.ref (lvlNT l), .star (contPeg (l + 1))] →
      Bd k (rule M U (lvlNT (l + 1))) (t ++ t') rest (bx h :: chainB (l + 1) os es) := by
    intro hr
    rw [hr]
    exact .ofSeq (.step (h1 _) (.step (.star (h2 _)) (.nil _)))
  have hne : t ≠ [] := by obtain ⟨c, u, rfl, _⟩ := written_first hw; simp
  simp only [isChain, List.elem_eq_mem, List.mem_cons, List.not_mem_nil, or_false, decide_eq_true_eq,
    Nat.reduceEqDiff] at hl
  rcases hl with rfl | rfl | rfl | rfl | rfl | rfl | rfl | rfl | rfl | rfl | rfl
  case inr.inr.inl =>
    exact .ofSeq (.step (x := []) (r := t ++ (t' ++ rest)) (.opt_none (no_neg hne (written_no_minus hw (by omega))))
      (.step (x := []) (r := t ++ (t' ++ rest)) (.ws .nil (written_noBlank hw)) (.step (h1 _) (.step (.star (h2 _)) (.nil _)))))
  all_goals exact hsimple rfl

theorem reads_minus {w t t' rest : Str} {h : Expr} {os : List Str} {es : List Expr} (hb : Blanks w) (hw : Written M names 3 t h)
    (hlen : os.length = es.length)
    (h1 : ∀ k, Bd k (.ref .term) t (t' ++ rest) [bx h])
    (h2 : ∀ k, Bs k (contPeg 4) t' rest (chainB 4 os es)) :
    Bd k (.ref .arith_expr) ('-' :: (w ++ t ++ t')) rest [bx (.chain true h os es)] := by
  refine .several rfl (bs := .neg :: bx h :: chainB 4 os es) ?_ (by simp) ?_
  · exact .ofSeq (.step (.opt_some (.plain (n := .neg) (bs := []) (.lit _ _) rfl)) (.step (r := t ++ (t' ++ rest)) (.ws hb (written_noBlank hw))
      (.step (h1 _) (.step (.star (h2 _)) (.nil _)))))
  · rw [attachQuals_id (.cons (by simp) (.cons (by simp [bx]) (.chain 4 os es)))]
    simp only [setup, setupExpr, bx, asChain_chainB (l := 4) (by simp) os es hlen]; rfl

end
end Verif
