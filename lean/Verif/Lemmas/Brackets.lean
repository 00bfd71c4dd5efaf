import Verif.Lemmas.Atoms

/-! Expressions in brackets, and what may follow an atom. -/

namespace Verif
open Py Spec

section
variable {M : Marks} {U : Uni} {P : Type} {names : Str → Option Char} {full : Str} {k : Nat}

local notation "Bd" => Builds M U P names full
local notation "Bq" => BuildsSeq M U P names full
local notation "Bs" => BuildsStar M U P names full
local notation "Fl" => Fails (rule M U)
local notation "Fq" => FailsSeq (rule M U)

theorem eats_lit (l rest : Str) : Eats M U (.lit l) l rest := ⟨_, .lit l rest⟩

/-! Roots of expressions -/

theorem attachQuals_one (e : Expr) : attachQuals [bx (P := P) e] = [bx e] := attachQuals_id (.bx [e])

theorem builds_expr {t rest : Str} {e : Expr} (h : Bd k (.ref .ifelse_test) t rest [bx e]) :
    Bd k (.ref .expr) t rest [bx (.root none e)] := by
  refine .plain (bs := [bx e]) ?_ (by rw [attachQuals_one]; rfl)
  have h' : Bd k (.ref .expr_root) t rest [bx e] := .reduced rfl (.ofSeq (.step h (.step (.lit _ _) (.nil _))))
  exact .ofSeq (.step h' (.step (.lit _ _) (.nil _)))

theorem builds_bitwise {t rest : Str} {e : Expr} (h : Bd k (.ref .or_expr) t rest [bx e]) :
    Bd k (.ref .expr_bitwise) t rest [bx (.root none e)] := by
  refine .plain (bs := [bx e]) ?_ (by rw [attachQuals_one]; rfl)
  exact .ofSeq (.step h (.step (.lit _ _) (.nil _)))

theorem not_comma {s : Str} (hc : s.head? ≠ some ',') : Fl (.lit (s!!",")) s := by
  cases s with
  | nil => exact .lit rfl
  | cons c s => exact .lit1 (by simpa using hc)

theorem builds_augment {t w s : Str} {e : Expr} (hw : Blanks w) (hs : NoBlank s) (hc : s.head? ≠ some ',')
    (h : ∀ k, Bd k (.ref .ifelse_test) t (w ++ s) [bx e]) :
    Bd k (.ref .expr_augment) t (w ++ s) [bx (.root none e)] := by
  refine .plain (bs := [bx e]) ?_ (by rw [attachQuals_one]; rfl)
  refine .alt (.there (.ref (.seq ?_)) (.here ?_))
  · exact .after (builds_expr (h 0)).eats (.after (.ws hw hs) (.head (not_comma hc)))
  · exact .reduced rfl (.ofSeq (.step (h _) (.step (.lit _ _) (.nil _))))

/-! Brackets -/

theorem reads_paren {w t w' rest : Str} {e : Expr} (hw : Blanks w) (hw' : Blanks w') (hb : ∀ s, NoBlank (t ++ s))
    (h : ∀ k rest, After M U 15 rest → Bd k (.ref .ifelse_test) t rest [bx e]) :
    Bd k (.ref .atom) ('(' :: (w ++ t ++ w' ++ [')'])) rest [bx (.root none e)] := by
  refine .reduced rfl (.alt (.there (.first 200 rfl) (.there (.first 200 rfl) (.there (.first 200 rfl)
    (.here (.reduced rfl ?_))))))
  exact .ofSeq (.step (.lit _ _) (.step (.ws hw (hb (w' ++ ')' :: rest))) (.step (builds_expr (h _ (w' ++ ')' :: rest) (.closer (.inl rfl) hw')))
    (.step (.ws hw' (rest := ')' :: rest) (.cons rfl)) (.step (.lit _ _) (.nil _))))))

theorem builds_comma {w1 w2 rest : Str} (hw1 : Blanks w1) (hw2 : Blanks w2) (hb : NoBlank rest) :
    Bd k (.ref .comma) (w1 ++ ',' :: w2) rest [] := by
  have h : Bd k (rule M U .comma) (w1 ++ ',' :: w2) rest [] :=
    .ofSeq (.step (.ws hw1 (rest := ',' :: (w2 ++ rest)) (.cons rfl)) (.step (.lit _ _) (.step (.ws hw2 hb) (.nil _))))
  obtain ⟨t, ht, _⟩ := h
  exact .ignored rfl ht

theorem builds_item {t w1 w2 rest : Str} {e : Expr} (hw1 : Blanks w1) (hw2 : Blanks w2) (hb : NoBlank rest)
    (h : ∀ k rest, After M U 15 rest → Bd k (.ref .ifelse_test) t rest [bx e]) :
    Bd k (.seq [.ref .expr, .ref .comma]) (t ++ (w1 ++ (',' :: w2))) rest [bx (.root none e)] :=
  .ofSeq (.step (builds_expr (h _ (w1 ++ (',' :: (w2 ++ rest))) (.closer (by simp) hw1)))
    (.step (builds_comma hw1 hw2 hb) (.nil _)))

theorem no_comma {w s : Str} {c : Char} (hw : Blanks w) (hb : isBlank c = false) (hc : c ≠ ',') :
    Fl (.ref .comma) (w ++ c :: s) :=
  .ref (.seq2 (.ws hw (.cons hb)) (.lit1 hc))

/-- No further item. -/
theorem no_item {t w s : Str} {e : Expr} {c : Char} (hw : Blanks w) (hc : c = ')' ∨ c = ']' ∨ c = '}')
    (h : ∀ k rest, After M U 15 rest → Builds M U P names full k (.ref .ifelse_test) t rest [bx e]) :
    Fl (.seq [.ref .expr, .ref .comma]) (t ++ (w ++ c :: s)) := by
  have hcl : After M U 15 (w ++ c :: s) := .closer (by rcases hc with h | h | h <;> simp [h]) hw
  refine .seq2 (builds_expr (h 0 _ hcl)).eats (no_comma hw ?_ ?_)
  · rcases hc with rfl | rfl | rfl <;> rfl
  · rcases hc with rfl | rfl | rfl <;> decide

theorem builds_last {t w s : Str} {e : Expr} {c : Char} (hw : Blanks w) (hc : c = ')' ∨ c = ']' ∨ c = '}')
    (h : ∀ k rest, After M U 15 rest → Bd k (.ref .ifelse_test) t rest [bx e]) :
    Bd k (.opt (.seq [.ref .expr, .ref .ws])) (t ++ w) (c :: s) [bx (.root none e)] := by
  have hcl : After M U 15 (w ++ c :: s) := .closer (by rcases hc with h | h | h <;> simp [h]) hw
  refine .opt_some (.ofSeq (.step (builds_expr (h _ _ hcl)) (.step (.ws hw (.cons ?_)) (.nil _))))
  rcases hc with rfl | rfl | rfl <;> rfl

theorem reads_list {w t l rest : Str} {es fs : List Expr} (hw : Blanks w) (hb : NoBlank (t ++ (l ++ ']' :: rest)))
    (h1 : ∀ k, Bs k (.seq [.ref .expr, .ref .comma]) t (l ++ ']' :: rest) (es.map bx))
    (h2 : ∀ k, Bd k (.opt (.seq [.ref .expr, .ref .ws])) l (']' :: rest) (fs.map bx)) :
    Bd k (.ref .atom) ('[' :: (w ++ t ++ l ++ [']'])) rest [bx (.list (es ++ fs))] := by
  refine .reduced rfl (.alt (.there (.first 200 rfl) (.there (.first 200 rfl) (.there (.first 200 rfl)
    (.there (.first 200 rfl) (.there (.first 200 rfl) (.here (.plain (bs := (es ++ fs).map bx) ?_ ?_))))))))
  · exact .ofSeq (.step (.lit _ _) (.step (.ws hw hb) (.step (.star (h1 _)) (.step (h2 _)
      (.step (.lit _ _) (.nil _))))))
  · rw [attachQuals_id (.bx _)]
    simp only [setup, setupExpr, asExprs_bx]; rfl

theorem reads_unit {w rest : Str} (hw : Blanks w) :
    Bd k (.ref .atom) ('(' :: (w ++ [')'])) rest [bx (.tuple [])] := by
  have hs : Fl (.ref .subexpr) ('(' :: (w ++ [')']) ++ rest) := by
    refine .ref (.seq ?_)
    refine .after (x := ['(']) (rest := w ++ ')' :: rest) (eats_lit _ _)
      (.after (x := w) (rest := ')' :: rest) (.ws hw (.cons rfl)) (.first 200 rfl)) (by simp)
  refine .reduced rfl (.alt (.there (.first 200 rfl) (.there (.first 200 rfl) (.there (.first 200 rfl)
    (.there hs (.here (.plain (bs := []) ?_ ?_)))))))
  · exact .ofSeq (.step (.lit _ _) (.step (.ws hw (rest := ')' :: rest) (.cons rfl)) (.step (.opt_none (.first 200 rfl))
      (.step (.lit _ _) (.nil _)))))
  · rfl

theorem reads_tuple {w t l rest : Str} {es fs : List Expr} (hw : Blanks w) (hb : NoBlank (t ++ (l ++ ')' :: rest)))
    (hs : Fq [.ref .expr, .ref .ws, .lit (s!!")")] (t ++ (l ++ ')' :: rest)))
    (h1 : ∀ k, Bd k (.plus (.seq [.ref .expr, .ref .comma])) t (l ++ ')' :: rest) (es.map bx))
    (h2 : ∀ k, Bd k (.opt (.seq [.ref .expr, .ref .ws])) l (')' :: rest) (fs.map bx)) :
    Bd k (.ref .atom) ('(' :: (w ++ t ++ l ++ [')'])) rest [bx (.tuple (es ++ fs))] := by
  have hs : Fl (.ref .subexpr) ('(' :: (w ++ t ++ l ++ [')']) ++ rest) := by
    refine .ref (.seq ?_)
    refine .after (x := ['(']) (rest := w ++ (t ++ (l ++ ')' :: rest))) (eats_lit _ _)
      (.after (.ws hw hb) hs) (by simp)
  refine .reduced rfl (.alt (.there (.first 200 rfl) (.there (.first 200 rfl) (.there (.first 200 rfl)
    (.there hs (.here (.plain (bs := (es ++ fs).map bx) ?_ ?_)))))))
  · exact .ofSeq (.step (.lit _ _) (.step (.ws hw hb) (.step (.opt_some (.ofSeq (.step (h1 _) (.step (h2 _) (.nil _))) rfl rfl))
      (.step (.lit _ _) (.nil _)))))
  · rw [attachQuals_id (.bx _)]
    simp only [setup, setupExpr, asExprs_bx]; rfl

/-- The beginning of a set is not the beginning of a dictionary. -/
theorem no_pair {t w s : Str} {e : Expr} {c : Char} (hw : Blanks w) (hc : c = '}' ∨ c = ',')
    (h : ∀ k rest, After M U 8 rest → Builds M U P names full k (.ref .or_expr) t rest [bx e]) :
    Fl (.ref .dict_pair) (t ++ (w ++ c :: s)) := by
  have hcl : After M U 8 (w ++ c :: s) := (After.closer (by rcases hc with h | h <;> simp [h]) hw).mono (by omega)
  refine .ref (.seq ?_)
  refine .after (builds_bitwise (h 0 _ hcl)).eats (.after (.ws hw (.cons ?_)) (.head (.lit1 ?_)))
  · rcases hc with rfl | rfl <;> rfl
  · rcases hc with rfl | rfl <;> decide

theorem reads_set {w t t' w' u s rest : Str} {c : Char} {e : Expr} {es : List Expr} (hw : Blanks w) (hw' : Blanks w')
    (hb : ∀ s, NoBlank (t ++ s)) (hu : Blanks u) (hc : c = '}' ∨ c = ',')
    (hcu : t' ++ (w' ++ '}' :: rest) = u ++ c :: s)
    (h8 : ∀ k rest, After M U 8 rest → Bd k (.ref .or_expr) t rest [bx e])
    (h15 : ∀ k rest, After M U 15 rest → Bd k (.ref .ifelse_test) t rest [bx e])
    (h1 : ∀ k, Bs k (.seq [.ref .comma, .ref .expr]) t' (w' ++ '}' :: rest) (es.map bx)) :
    Bd k (.ref .atom) ('{' :: (w ++ t ++ t' ++ w' ++ ['}'])) rest [bx (.set (.root none e :: es))] := by
  have hp : Fl (.ref .dict_pair) (t ++ (t' ++ (w' ++ '}' :: rest))) := by rw [hcu]; exact no_pair hu hc h8
  have hcl : After M U 15 (t' ++ (w' ++ '}' :: rest)) := by
    rw [hcu]; exact .closer (by rcases hc with h | h <;> simp [h]) hu
  obtain ⟨c0, t0, ht0⟩ : ∃ c0 t0, t = c0 :: t0 := by
    cases t with
    | cons c t => exact ⟨_, _, rfl⟩
    | nil => exact absurd (hb [' '] ' ' rfl) (by decide)
  have hd : Fl (.ref .dict) ('{' :: (w ++ t ++ t' ++ w' ++ ['}']) ++ rest) := by
    refine .ref (.seq ?_)
    refine .after (x := ['{']) (rest := w ++ (t ++ (t' ++ (w' ++ '}' :: rest)))) (eats_lit _ _)
      (.after (.ws hw (hb _)) ?_) (by simp)
    refine .after (x := []) ⟨_, .star (.nil (.seq1 hp))⟩ (.after (x := []) (.opt_none (.seq1 hp)) (.head ?_))
    have h0 := (h8 0 _ (hcl.mono (l' := 8) (by omega))).eats
    rw [ht0]
    refine .lit1 ?_
    rintro rfl
    obtain ⟨_, hy⟩ := h0
    rw [ht0] at hy
    have hn : Fl (.ref .or_expr) (('}' :: t0) ++ (t' ++ (w' ++ '}' :: rest))) := .first 200 rfl
    exact hy.not_fails hn
  refine .reduced rfl (.alt (.there (.first 200 rfl) (.there (.first 200 rfl) (.there (.first 200 rfl)
    (.there (.first 200 rfl) (.there (.first 200 rfl) (.there (.first 200 rfl) (.there hd (.here
      (.plain (bs := (.root none e :: es).map bx) ?_ ?_))))))))))
  · exact .ofSeq (.step (.lit _ _) (.step (.ws hw (hb (t' ++ (w' ++ '}' :: rest)))) (.step (builds_expr (h15 _ _ hcl)) (.step (.star (h1 _))
      (.step (.ws hw' (rest := '}' :: rest) (.cons rfl)) (.step (.opt_none (.first 200 rfl)) (.step (.lit _ _) (.nil _))))))))
  · rw [attachQuals_id (.bx _)]
    simp only [setup, setupExpr, asExprs_bx]; rfl

theorem builds_elem {w1 w2 t rest : Str} {e : Expr} (hw1 : Blanks w1) (hw2 : Blanks w2) (hb : NoBlank (t ++ rest))
    (h : ∀ k, Bd k (.ref .ifelse_test) t rest [bx e]) :
    Bd k (.seq [.ref .comma, .ref .expr]) (w1 ++ (',' :: (w2 ++ t))) rest [bx (.root none e)] :=
  .ofSeq (.step (builds_comma hw1 hw2 hb) (.step (builds_expr (h _)) (.nil _)))

theorem builds_pair {t1 w1 w2 t2 rest : Str} {e1 e2 : Expr} (hw1 : Blanks w1) (hw2 : Blanks w2) (hb : NoBlank (t2 ++ rest))
    (h1 : ∀ k rest, After M U 8 rest → Bd k (.ref .or_expr) t1 rest [bx e1])
    (h2 : ∀ k, Bd k (.ref .ifelse_test) t2 rest [bx e2]) :
    Bd k (.ref .dict_pair) (t1 ++ (w1 ++ (':' :: (w2 ++ t2)))) rest [bx (.root none e1), bx (.root none e2)] := by
  refine .reduced rfl ?_
  exact .ofSeq (.step (builds_bitwise (h1 _ (w1 ++ (':' :: (w2 ++ (t2 ++ rest)))) (.colon hw1)))
    (.step (.ws hw1 (.cons rfl)) (.step (.lit _ _) (.step (.ws hw2 hb) (.step (builds_expr (h2 _)) (.nil _))))))

theorem reads_dict0 {w rest : Str} (hw : Blanks w) : Bd k (.ref .atom) ('{' :: (w ++ ['}'])) rest [bx (.dict [])] := by
  refine .reduced rfl (.alt (.there (.first 200 rfl) (.there (.first 200 rfl) (.there (.first 200 rfl)
    (.there (.first 200 rfl) (.there (.first 200 rfl) (.there (.first 200 rfl) (.here (.plain (bs := []) ?_ ?_)))))))))
  · exact .ofSeq (.step (.lit _ _) (.step (.ws hw (rest := '}' :: rest) (.cons rfl)) (.step (.star (.nil (.first 200 rfl)))
      (.step (.opt_none (.first 200 rfl)) (.step (.lit _ _) (.nil _))))))
  · rfl

theorem reads_dict {w x y w' rest : Str} {es : List Expr} {bs cs : List (Built P)} (hw : Blanks w)
    (hes : bs ++ cs = es.map bx) (hb : NoBlank (x ++ (y ++ (w' ++ '}' :: rest))))
    (h1 : ∀ k, Bs k (.seq [.ref .dict_pair, .ref .comma]) x (y ++ (w' ++ '}' :: rest)) bs)
    (h2 : ∀ k, Bd k (.opt (.seq [.ref .dict_pair, .ref .ws])) (y ++ w') ('}' :: rest) cs) :
    Bd k (.ref .atom) ('{' :: (w ++ (x ++ y) ++ w' ++ ['}'])) rest [bx (.dict es)] := by
  refine .reduced rfl (.alt (.there (.first 200 rfl) (.there (.first 200 rfl) (.there (.first 200 rfl)
    (.there (.first 200 rfl) (.there (.first 200 rfl) (.there (.first 200 rfl) (.here (.plain (bs := bs ++ cs) ?_ ?_)))))))))
  · exact .ofSeq (.step (.lit _ _) (.step (.ws hw hb) (.step (.star (h1 _)) (.step (h2 _) (.step (.lit _ _) (.nil _))))))
  · rw [hes, attachQuals_id (.bx _)]
    simp only [setup, setupExpr, asExprs_bx]; rfl

/-! Arguments -/

/-- The node of an argument. -/
def argB (n : Option Str) (e : Expr) : Built P :=
  match n with
  | none => bx e
  | some n => .kwarg n e

/-- The nodes of arguments. -/
def argsB : List (Option Str) → List Expr → List (Built P)
  | n :: ns, e :: es => argB n e :: argsB ns es
  | _, _ => []

theorem asArgs_argsB : ∀ (ns : List (Option Str)) (es : List Expr), ns.length = es.length →
    asArgs (P := P) (argsB ns es) = .ok (ns, es)
  | [], [], _ => rfl
  | n :: ns, e :: es, h => by
    have ih := asArgs_argsB ns es (by simpa using h)
    cases n with
    | none => simp only [argsB, argB, bx, asArgs]; rw [ih]; rfl
    | some n => simp only [argsB, argB, asArgs]; rw [ih]; rfl

theorem NoQual.args : ∀ (ns : List (Option Str)) (es : List Expr), NoQual (argsB (P := P) ns es)
  | [], _ => by unfold argsB; exact .nil
  | _ :: _, [] => by unfold argsB; exact .nil
  | n :: ns, e :: es => by
    unfold argsB
    refine .cons ?_ (.args ns es)
    intro q
    cases n <;> simp [argB, Verif.bx]

theorem nameEnd_blanks {w s : Str} {c : Char} (hw : Blanks w) (hc : nameChar c = false) : NameEnd (w ++ c :: s) := by
  intro d hd
  cases w with
  | nil => simp only [List.nil_append, List.head?_cons, Option.some.injEq] at hd; rw [← hd]; exact hc
  | cons a w =>
    simp only [List.cons_append, List.head?_cons, Option.some.injEq] at hd
    rcases hw a (by simp) with h | h <;> rw [← hd, h] <;> rfl

theorem builds_kwarg {n w1 w2 t rest : Str} {e : Expr} (hn : Name n) (hw1 : Blanks w1) (hw2 : Blanks w2)
    (hb : NoBlank (t ++ rest)) (h : ∀ k, Bd k (.ref .ifelse_test) t rest [bx e]) :
    Bd k (.ref .arg) (n ++ (w1 ++ ('=' :: (w2 ++ t)))) rest [argB (some n) (.root none e)] := by
  refine .reduced rfl (.alt (.here (.plain (bs := [.str .name_id n, bx (.root none e)]) ?_ ?_)))
  · refine .ofSeq (.step (.name hn (rest := w1 ++ ('=' :: (w2 ++ (t ++ rest)))) ?_) (.step (.ws hw1 (.cons rfl))
      (.step (.lit _ _) (.step (.ws hw2 hb) (.step (builds_expr (h _)) (.nil _))))))
    exact nameEnd_blanks hw1 (c := '=') rfl
  · rw [attachQuals_id]
    · rfl
    · exact .cons (by simp) (.cons (by simp [bx]) .nil)

theorem builds_posarg {t rest : Str} {e : Expr} (hk : Fl (.ref .kwarg) (t ++ rest))
    (h : ∀ k, Bd k (.ref .ifelse_test) t rest [bx e]) :
    Bd k (.ref .arg) t rest [argB none (.root none e)] :=
  .reduced rfl (.alt (.there hk (.here (builds_expr (h _)))))

end
end Verif
