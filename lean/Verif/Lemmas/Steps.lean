import Verif.Lemmas.Levels

/-! Atoms with calls and qualifiers, filters, negation and conditional expressions. -/

namespace Verif
open Py Spec

section
variable {M : Marks} {U : Uni} {P : Type} {names : Str → Option Char} {full : Str} {k : Nat}

local notation "Bd" => Builds M U P names full
local notation "Bq" => BuildsSeq M U P names full
local notation "Bs" => BuildsStar M U P names full
local notation "Fl" => Fails (rule M U)
local notation "Fq" => FailsSeq (rule M U)
local notation "Rd" => Reads M U P names full

theorem reads_le {l m : Nat} {t : Str} {e : Expr} (hw : Written M names l t e) (h : Rd l t e) (hl : l ≤ m) (hm : m ≤ 15) :
    Rd m t e ∧ Written M names m t e := by
  induction m with
  | zero =>
    have : l = 0 := by omega
    subst this; exact ⟨h, hw⟩
  | succ m ih =>
    by_cases hlm : l = m + 1
    · subst hlm; exact ⟨h, hw⟩
    · obtain ⟨h1, h2⟩ := ih (by omega) (by omega)
      exact ⟨reads_up h2 (by omega) h1, .up h2 (by omega)⟩

/-! Qualifiers -/

/-- The node of a qualifier. -/
def qualB (q : Option Qual) : List (Built P) :=
  match q with
  | none => []
  | some q => [.qual q]

theorem attachQuals_tails {ts : List Tail} {q : Option Qual} :
    attachQuals (ts.map (Built.tail (P := P)) ++ qualB q) = ts.map .tail ++ qualB q := by
  induction ts with
  | nil => cases q <;> rfl
  | cons t ts ih =>
    simp only [List.map_cons, List.cons_append]
    rw [attachQuals, ih]
    intro _ _ _ _ h
    cases h

theorem attachQuals_factor {a : Expr} {ts : List Tail} {q : Option Qual} (h : ts ≠ [] ∨ ∀ p e, a ≠ .root p e) :
    attachQuals (bx (P := P) a :: (ts.map .tail ++ qualB q)) = bx a :: (ts.map .tail ++ qualB q) := by
  have : attachQuals (bx (P := P) a :: (ts.map .tail ++ qualB q)) = bx a :: attachQuals (ts.map .tail ++ qualB q) := by
    rw [attachQuals]
    intro o e q' rest hb hr
    rcases h with h | h
    · cases ts with
      | nil => exact absurd rfl h
      | cons t ts => cases hr
    · simp only [bx, Built.expr.injEq] at hb
      exact h _ _ hb.2
  rw [this, attachQuals_tails]

theorem asTails_qual (ts : List Tail) (q : Option Qual) : asTails (P := P) (ts.map .tail ++ qualB q) = .ok (ts, q) := by
  induction ts with
  | nil => cases q <;> rfl
  | cons t ts ih => simp only [List.map_cons, List.cons_append, asTails]; rw [ih]; rfl

theorem builds_qual {q : Option Qual} {rest : Str} (h : q = none → Fl (.ref .qualifier) rest) :
    Bd k (.opt (.ref .qualifier)) (qualText q) rest (qualB q) := by
  cases q with
  | none => exact .opt_none (h rfl)
  | some q =>
    cases q with
    | opt => exact .opt_some (.plain (n := .qualifier) (bs := []) (.rx rfl) rfl)
    | obl => exact .opt_some (.plain (n := .qualifier) (bs := []) (.rx rfl) rfl)

theorem factor_stop {q : Option Qual} {rest : Str} (h : After M U 1 rest) :
    Fl (.seq [.ref .ws, .ref .trailer]) (qualText q ++ rest) := by
  cases q with
  | none => exact h.stops 1 (by omega) _ (.head _)
  | some q => cases q <;> exact .first 200 rfl

theorem qual_nameEnd {q : Option Qual} {rest : Str} (h : NameEnd rest) : NameEnd (qualText q ++ rest) := by
  cases q with
  | none => exact h
  | some q =>
    intro c hc
    cases q <;>
    · simp only [qualText, List.cons_append, List.nil_append, List.head?_cons, Option.some.injEq] at hc
      rw [← hc]; rfl

theorem reads_factor {t t' rest : Str} {a : Expr} {ts : List Tail} {q : Option Qual} (hne : ts ≠ [] ∨ q ≠ none)
    (hr : ts ≠ [] ∨ ∀ p e, a ≠ .root p e) (ha : After M U 1 rest)
    (h1 : ∀ k, Bd k (.ref .atom) t (t' ++ (qualText q ++ rest)) [bx a])
    (h2 : ∀ k, Bs k (.seq [.ref .ws, .ref .trailer]) t' (qualText q ++ rest) (ts.map .tail)) :
    Bd k (.ref .factor) (t ++ t' ++ qualText q) rest [bx (.factor a ts q)] := by
  refine .several (bs := bx a :: (ts.map .tail ++ qualB q)) rfl ?_ ?_ ?_
  · exact .ofSeq (.step (h1 _) (.step (.star (h2 _)) (.step (builds_qual (q := q) (fun _ => no_qualifier ha)) (.nil _))))
  · cases ts with
    | nil =>
      cases q with
      | none => simp at hne
      | some q => simp [qualB]
    | cons t ts => simp
  · rw [attachQuals_factor hr]
    simp only [setup, setupExpr, bx, asTails_qual]; rfl

theorem tails_head {t : Str} {ts : List Tail} (h : Tails M names t ts) (hne : ts ≠ []) :
    ∃ c s, t = c :: s ∧ (c = '(' ∨ c = '[' ∨ c = '.') := by
  cases h with
  | nil => exact absurd rfl hne
  | call => exact ⟨_, _, rfl, .inl rfl⟩
  | index => exact ⟨_, _, rfl, .inr (.inl rfl)⟩
  | slice => exact ⟨_, _, rfl, .inr (.inl rfl)⟩
  | sliceStep => exact ⟨_, _, rfl, .inr (.inl rfl)⟩
  | member => exact ⟨_, _, rfl, .inr (.inr rfl)⟩

theorem apart_sym {t s : Str} {c : Char} (h : nameChar c = false ∧ ascDigit c = false ∧ c.toNat < 128 ∧ c ≠ '\'' ∧ c ≠ '"')
    (hp : ∀ d, t.head? = some d → ascDigit d = true → c ≠ '.') : Apart U t (c :: s) := by
  refine ⟨?_, ?_⟩
  · intro d hd
    simp only [List.head?_cons, Option.some.injEq] at hd
    subst hd
    refine ⟨h.1, ?_, h.2.2.2⟩
    simp only [reDigit, h.2.1, Bool.false_or, Bool.and_eq_false_iff, decide_eq_false_iff_not]
    exact .inl (by omega)
  · intro d hd hd' hc
    simp only [List.head?_cons, Option.some.injEq] at hc
    exact hp d hd hd' hc

theorem apart_tails {t t' s : Str} {ts : List Tail} (h : Tails M names t' ts) (hne : ts ≠ [])
    (hp : ∀ c, t.head? = some c → ascDigit c = true → t'.head? ≠ some '.') : Apart U t (t' ++ s) := by
  obtain ⟨c, u, rfl, hc⟩ := tails_head h hne
  refine apart_sym ?_ ?_
  · rcases hc with rfl | rfl | rfl <;> exact ⟨rfl, rfl, by decide, by decide, by decide⟩
  · intro d hd hd' hc'
    exact hp d hd hd' (by rw [hc']; rfl)

theorem apart_qual {t s : Str} {q : Qual} : Apart U t (qualText (some q) ++ s) := by
  cases q <;> exact apart_sym ⟨rfl, rfl, by decide, by decide, by decide⟩ (fun _ _ _ => by decide)

/-! Filters -/

/-- What may follow the name of a filter. -/
def FiltEnd (U : Uni) (rest : Str) : Prop :=
  ∀ c, rest.head? = some c → nameChar c = false ∧ reDigit U c = false ∧ c ≠ '\'' ∧ c ≠ '"' ∧ c ≠ '[' ∧ c ≠ '.'

theorem FiltEnd.apart {t rest : Str} (h : FiltEnd U rest) : Apart U t rest :=
  ⟨fun c hc => ⟨(h c hc).1, (h c hc).2.1, (h c hc).2.2.1, (h c hc).2.2.2.1⟩,
   fun _ _ _ hc => (h _ hc).2.2.2.2.2 rfl⟩

theorem FiltEnd.stop {rest : Str} (h : FiltEnd U rest) : Fl (.ref .trailer_filt) rest := by
  cases rest with
  | nil => exact .first 200 rfl
  | cons c s =>
    have := h c rfl
    exact .ref (.alt (.cons (.ref (.seq1 (.lit1 this.2.2.2.2.1))) (.cons (.ref (.seq1 (.lit1 this.2.2.2.2.2))) (.nil _))))

theorem FiltEnd.paren {s : Str} : FiltEnd U ('(' :: s) := by
  intro d hd
  simp only [List.head?_cons, Option.some.injEq] at hd
  subst hd
  refine ⟨rfl, ?_, by decide, by decide, by decide, by decide⟩
  simp [reDigit, ascDigit]

theorem FiltEnd.after {l : Nat} {rest : Str} (h : After M U l rest) : FiltEnd U rest := by
  intro c hc
  have := h.ends c hc
  simp only [endChar, Bool.and_eq_true, Bool.not_eq_true', List.elem_eq_mem, decide_eq_false_iff_not, List.mem_cons,
    List.not_mem_nil, or_false, not_or] at this
  exact ⟨this.1.1, this.1.2, this.2.1, this.2.2.1, this.2.2.2.2.2.2.2, this.2.2.2.2.2.2.1⟩

theorem After.no_paren {l : Nat} {rest : Str} (h : After M U l rest) : Fl (.ref .partial_call) rest := by
  cases rest with
  | nil => exact .first 200 rfl
  | cons c s =>
    have := h.ends c rfl
    simp only [endChar, Bool.and_eq_true, Bool.not_eq_true', List.elem_eq_mem, decide_eq_false_iff_not, List.mem_cons,
      List.not_mem_nil, or_false, not_or] at this
    exact .ref (.seq1 (.lit1 this.2.2.2.2.2.1))

theorem builds_filtname {t t' rest : Str} {a : Expr} {ts : List Tail} (hne : ts ≠ [])
    (h1 : ∀ k, Bd k (.ref .atom) t (t' ++ rest) [bx a])
    (h2 : ∀ k, Bs k (.ref .trailer_filt) t' rest (ts.map .tail)) :
    Bd k (.ref .factor_filt) (t ++ t') rest [bx (.factor a ts none)] := by
  refine .several (bs := bx a :: ts.map .tail) rfl ?_ ?_ ?_
  · exact .ofSeq (.step (h1 _) (.step (.star (h2 _)) (.nil _)))
  · cases ts with
    | nil => exact absurd rfl hne
    | cons t ts => simp
  · rw [attachQuals_id (.cons (by simp [bx]) (.tails _))]
    simp only [setup, setupExpr, bx, asTails_tail]; rfl

theorem builds_filtatom {t rest : Str} {a : Expr} (hr : FiltEnd U rest) (h1 : ∀ k, Bd k (.ref .atom) t rest [bx a]) :
    Bd k (.ref .factor_filt) t rest [bx a] := by
  refine .single rfl ?_
  exact .ofSeq (.step (h1 _) (.step (.star (.nil hr.stop)) (.nil _)))

theorem builds_filter {w1 w2 t rest : Str} {e : Expr} (hw1 : Blanks w1) (hw2 : Blanks w2) (hb : NoBlank (t ++ rest))
    (hp : Fl (.ref .partial_call) rest) (h : ∀ k, Bd k (.ref .factor_filt) t rest [bx e]) :
    Bd k (.seq [.ref .ws, .lit (s!!":"), .ref .ws, .ref .filter]) (w1 ++ (':' :: (w2 ++ t))) rest
      [bx (.factor e [] none)] := by
  have hf : ∀ k, Bd k (.ref .filter) t rest [bx (.factor e [] none)] := by
    intro k
    refine .plain (bs := [bx e]) ?_ (by rw [attachQuals_one]; rfl)
    exact .ofSeq (.step (h _) (.step (.opt_none hp) (.nil _)))
  exact .ofSeq (.step (r := ':' :: (w2 ++ (t ++ rest))) (.ws hw1 (.cons rfl)) (.step (.lit _ _) (.step (.ws hw2 hb)
    (.step (hf _) (.nil _)))))

theorem builds_filtargs {w1 w2 t x rest : Str} {e : Expr} {tl : Tail} (hw1 : Blanks w1) (hw2 : Blanks w2)
    (hb : ∀ s, NoBlank (t ++ s)) (h : ∀ k, Bd k (.ref .factor_filt) t (x ++ rest) [bx e])
    (hx : ∀ k, Bd k (.ref .partial_call) x rest [.tail tl]) :
    Bd k (.seq [.ref .ws, .lit (s!!":"), .ref .ws, .ref .filter]) (w1 ++ (':' :: (w2 ++ (t ++ x)))) rest
      [bx (.factor e [tl] none)] := by
  have hf : ∀ k, Bd k (.ref .filter) (t ++ x) rest [bx (.factor e [tl] none)] := by
    intro k
    refine .plain (bs := [bx e, .tail tl]) ?_ ?_
    · exact .ofSeq (.step (h _) (.step (.opt_some (hx _)) (.nil _)))
    · rw [attachQuals_id (.cons (by simp [bx]) (.cons (by simp) .nil))]; rfl
  exact .ofSeq (.step (r := ':' :: (w2 ++ (t ++ (x ++ rest)))) (.ws hw1 (.cons rfl)) (.step (.lit _ _)
    (.step (r := t ++ (x ++ rest)) (.ws hw2 (hb _)) (.step (hf _) (.nil _)))))

theorem reads_pipeline {t t' rest : Str} {h : Expr} {es : List Expr} (hne : es ≠ [])
    (h1 : ∀ k, Bd k (.ref .or_expr) t (t' ++ rest) [bx h])
    (h2 : ∀ k, Bs k (.seq [.ref .ws, .lit (s!!":"), .ref .ws, .ref .filter]) t' rest (es.map bx)) :
    Bd k (.ref .pipeline) (t ++ t') rest [bx (.pipeline h es)] := by
  refine .several (bs := bx h :: es.map bx) rfl ?_ ?_ ?_
  · exact .ofSeq (.step (h1 _) (.step (.star (h2 _)) (.nil _)))
  · cases es with
    | nil => exact absurd rfl hne
    | cons e es => simp
  · rw [show bx (P := P) h :: es.map bx = (h :: es).map bx from rfl, attachQuals_id (.bx (h :: es)), List.map_cons]
    simp only [setup, setupExpr]; rw [bx]; simp only [asExprs_bx]; rfl

/-! Negation -/

theorem builds_not {w rest : Str} (hw : Blanks w) (hne : w ≠ []) (hb : NoBlank rest) :
    Bd k (.seq [.ref .not, .ref .space]) (s!!"not" ++ w) rest [.notKw] :=
  .ofSeq (.step (.plain (n := .not) (bs := []) (.lit _ _) rfl) (.step (.space hw hne hb) (.nil _)))

theorem asNots_replicate (n : Nat) (e : Expr) : asNots (P := P) (List.replicate n .notKw ++ [bx e]) = .ok (n, e) := by
  induction n with
  | zero => rfl
  | succ n ih => simp only [List.replicate_succ, List.cons_append, asNots]; rw [ih]; rfl

theorem reads_nots {n : Nat} {t t' rest : Str} {e : Expr}
    (h1 : ∀ k, Bs k (.seq [.ref .not, .ref .space]) t (t' ++ rest) (List.replicate (n + 1) .notKw))
    (h2 : ∀ k, Bd k (.ref .comparison) t' rest [bx e]) :
    Bd k (.ref .not_test) (t ++ t') rest [bx (.notTest (n + 1) e)] := by
  refine .several (bs := List.replicate (n + 1) .notKw ++ [bx e]) rfl ?_ (by simp) ?_
  · exact .ofSeq (.step (.star (h1 _)) (.step (h2 _) (.nil _)))
  · rw [attachQuals_id]
    · simp only [setup, setupExpr, asNots_replicate]; rfl
    · refine .append ?_ (.bx [e])
      intro q hq
      simp [List.mem_replicate] at hq

/-! Conditional expressions -/

theorem reads_if {x w1 w2 c rest : Str} {ex ec : Expr} (hw1 : Blanks w1) (hn1 : w1 ≠ []) (hw2 : Blanks w2) (hn2 : w2 ≠ [])
    (hbc : NoBlank (c ++ rest)) (he : Fl (.seq [.ref .space, .lit (s!!"else"), .ref .space, .ref .ifelse_test]) rest)
    (h1 : ∀ k, Bd k (.ref .or_test) x (w1 ++ (s!!"if" ++ (w2 ++ (c ++ rest)))) [bx ex])
    (h2 : ∀ k, Bd k (.ref .or_test) c rest [bx ec]) :
    Bd k (.ref .ifelse_test) (x ++ (w1 ++ (s!!"if" ++ (w2 ++ c)))) rest [bx (.ifElse ex ec none)] := by
  refine .several (bs := [bx ex, bx ec]) rfl ?_ (by simp) ?_
  · refine .ofSeq (.step (h1 _) (.step (.opt_some (x := w1 ++ (s!!"if" ++ (w2 ++ c))) (bs := [bx ec]) (.ofSeq (.step (.space hw1 hn1
      (rest := s!!"if" ++ (w2 ++ (c ++ rest))) (.cons rfl)) (.step (.lit _ _) (.step (.space hw2 hn2 hbc) (.step (h2 _)
      (.step (.opt_none he) (.nil _)))))) (by simp) rfl)) (.nil _)))
  · rw [show [bx (P := P) ex, bx ec] = [ex, ec].map bx from rfl, attachQuals_id (.bx [ex, ec])]; rfl

theorem reads_ifElse {x w1 w2 c w3 w4 y rest : Str} {ex ec ey : Expr} (hw1 : Blanks w1) (hn1 : w1 ≠ []) (hw2 : Blanks w2)
    (hn2 : w2 ≠ []) (hw3 : Blanks w3) (hn3 : w3 ≠ []) (hw4 : Blanks w4) (hn4 : w4 ≠ [])
    (hbc : ∀ s, NoBlank (c ++ s)) (hby : NoBlank (y ++ rest))
    (h1 : ∀ k, Bd k (.ref .or_test) x (w1 ++ (s!!"if" ++ (w2 ++ (c ++ (w3 ++ (s!!"else" ++ (w4 ++ (y ++ rest)))))))) [bx ex])
    (h2 : ∀ k, Bd k (.ref .or_test) c (w3 ++ (s!!"else" ++ (w4 ++ (y ++ rest)))) [bx ec])
    (h3 : ∀ k, Bd k (.ref .ifelse_test) y rest [bx ey]) :
    Bd k (.ref .ifelse_test) (x ++ (w1 ++ (s!!"if" ++ (w2 ++ (c ++ (w3 ++ (s!!"else" ++ (w4 ++ y)))))))) rest
      [bx (.ifElse ex ec (some ey))] := by
  have hy : ∀ k, Bd k (.opt (.seq [.ref .space, .lit (s!!"else"), .ref .space, .ref .ifelse_test]))
      (w3 ++ (s!!"else" ++ (w4 ++ y))) rest [bx ey] := fun k =>
    .opt_some (.ofSeq (.step (.space hw3 hn3 (rest := s!!"else" ++ (w4 ++ (y ++ rest))) (.cons rfl)) (.step (.lit _ _)
      (.step (.space hw4 hn4 hby) (.step (h3 _) (.nil _))))))
  have hc : ∀ k, Bd k (.opt (.seq [.ref .space, .lit (s!!"if"), .ref .space, .ref .or_test,
      .opt (.seq [.ref .space, .lit (s!!"else"), .ref .space, .ref .ifelse_test])]))
      (w1 ++ (s!!"if" ++ (w2 ++ (c ++ (w3 ++ (s!!"else" ++ (w4 ++ y))))))) rest [bx ec, bx ey] := fun k =>
    .opt_some (.ofSeq (.step (.space hw1 hn1 (rest := s!!"if" ++ (w2 ++ (c ++ (w3 ++ (s!!"else" ++ (w4 ++ (y ++ rest)))))))
      (.cons rfl)) (.step (.lit _ _) (.step (.space hw2 hn2 (hbc (w3 ++ (s!!"else" ++ (w4 ++ (y ++ rest))))))
        (.step (h2 _) (.step (hy _) (.nil _)))))))
  refine .several (bs := [bx ex, bx ec, bx ey]) rfl ?_ (by simp) ?_
  · exact .ofSeq (.step (h1 _) (.step (hc _) (.nil _)))
  · rw [show [bx (P := P) ex, bx ec, bx ey] = [ex, ec, ey].map bx from rfl, attachQuals_id (.bx [ex, ec, ey])]; rfl

end
end Verif
