import Verif.Lemmas.Checks
import Verif.Spec.Made

/-! Consequences of the checks: where definitions and imports are, and which exceptions are possible. -/

set_option linter.unusedSectionVars false

namespace Verif
open Py Spec

section
variable {P I : Type} {src : Source P I}

/-- All checks of a list are passed. -/
def Passed (l : List (Option (AErr I))) : Prop := ∀ x ∈ l, x = none

theorem passed_append {l m : List (Option (AErr I))} : Passed (l ++ m) ↔ Passed l ∧ Passed m := by
  simp only [Passed, List.mem_append]
  exact ⟨fun h => ⟨fun x hx => h x (.inl hx), fun x hx => h x (.inr hx)⟩,
    fun h x hx => hx.elim (h.1 x) (h.2 x)⟩

theorem passed_all {ss : List (Stmt P)} {s : Stmt P} (hs : s ∈ ss) {S : List Str} {ctl pro : Bool}
    (h : Passed (checksAll src S ctl pro ss)) : ∃ S' pro', Passed (checks src S' ctl pro' s) := by
  induction ss generalizing S pro with
  | nil => cases hs
  | cons a ss ih =>
    simp only [checksAll, passed_append] at h
    cases hs with
    | head => exact ⟨_, _, h.1⟩
    | tail _ hs => exact ih hs h.2

theorem passed_clauses {cs : List (Expr × Option (Stmt P))} {e : Expr} {b : Stmt P}
    (hs : (e, some b) ∈ cs) {S : List Str} {pro : Bool} (h : Passed (checksClauses src S pro cs)) :
    ∃ S' pro', Passed (checks src S' true pro' b) := by
  induction cs generalizing S pro with
  | nil => cases hs
  | cons a ss ih =>
    simp only [checksClauses, passed_append] at h
    cases hs with
    | head =>
      have := h.1
      simp only [checksClause, passed_append, checksOpt] at this
      exact ⟨_, _, this.2⟩
    | tail _ hs => exact ih hs h.2

theorem passed_occurs {k : Bool} {s t : Stmt P} (ho : Occurs k s t) : ∀ {S : List Str} {ctl pro : Bool},
    Passed (checks src S ctl pro s) → ∃ S' pro', Passed (checks src S' (ctl || k) pro' t) := by
  have into : ∀ {k : Bool} {t b : Stmt P}, (∀ {S : List Str} {ctl pro : Bool},
      Passed (checks src S ctl pro b) → ∃ S' pro', Passed (checks src S' (ctl || k) pro' t)) →
      ∀ (ctl : Bool), (∃ S' pro', Passed (checks src S' true pro' b)) →
      ∃ S' pro', Passed (checks src S' (ctl || true) pro' t) := by
    rintro k t b ih ctl ⟨S', pro', h⟩
    have := ih h
    rw [Bool.true_or] at this
    rwa [Bool.or_true]
  induction ho with
  | here s => intro S ctl pro h; exact ⟨_, _, by rwa [Bool.or_false]⟩
  | xblock _ ih => intro S ctl pro h; simp only [checks] at h; exact ih h
  | struct _ ih => intro S ctl pro h; simp only [checks, passed_append] at h; exact ih h.2
  | defn _ ih => intro S ctl pro h; simp only [checks, passed_append] at h; exact ih h.1.2
  | body hm _ ih =>
    intro S ctl pro h; simp only [checks] at h
    obtain ⟨S', pro', h⟩ := passed_all hm h
    exact ih h
  | elseClause _ ih => intro S ctl pro h; simp only [checks, checksOpt] at h; exact ih h
  | tryBlock hm _ ih =>
    intro S ctl pro h; simp only [checks] at h
    exact into ih ctl (passed_all hm h)
  | ifClause hm _ ih =>
    intro S ctl pro h; simp only [checks, passed_append] at h
    exact into ih ctl (passed_clauses hm h.1)
  | ifElse _ ih =>
    intro S ctl pro h; simp only [checks, passed_append, checksOpt] at h
    exact into ih ctl ⟨_, _, h.2⟩
  | whileBody _ ih =>
    intro S ctl pro h; simp only [checks, passed_append, checksOpt] at h
    exact into ih ctl ⟨_, _, h.1.2⟩
  | whileElse _ ih =>
    intro S ctl pro h; simp only [checks, passed_append, checksOpt] at h
    exact into ih ctl ⟨_, _, h.2⟩
  | forBody _ ih =>
    intro S ctl pro h; simp only [checks, passed_append, checksFirst] at h
    exact into ih ctl ⟨_, _, h.2⟩

/-! ### Exceptions -/

/-- Failures that do not come from what is written in the script. -/
def AErr.internal : AErr I → Bool
  | .assertion => true
  | .index => true
  | _ => false

/-- No check of the list ends with a failed assertion or `IndexError`. -/
def Clean (l : List (Option (AErr I))) : Prop := ∀ e, some e ∈ l → e.internal = false

theorem Clean.nil : Clean ([] : List (Option (AErr I))) := fun _ h => nomatch h

theorem Clean.append {l m : List (Option (AErr I))} (h : Clean l) (h' : Clean m) : Clean (l ++ m) :=
  fun e he => (List.mem_append.1 he).elim (h e) (h' e)

theorem clean_uses (S : List Str) (us : List Use) : Clean (usesOf S us : List (Option (AErr I))) := by
  intro e he
  obtain ⟨u, -, hu⟩ := List.mem_map.1 he
  cases u <;> simp only [inScope] at hu <;> split at hu <;> cases hu <;> rfl

theorem symbol_of_ident {m : Char} (hm : m = '$' ∨ m = '%') {n : Str} (h : Ident n) :
    IsSymbol (m :: n) = true := by
  obtain ⟨c, s, rfl, -⟩ := h
  rcases hm with rfl | rfl <;> rfl

theorem clean_symbol {sym : Str} (h : IsSymbol sym = true) :
    Clean [(symbolCheck sym : Option (AErr I))] := by
  intro e he
  simp [symbolCheck, h] at he

theorem clean_symbols {l : List Str} (h : ∀ x ∈ l, IsSymbol x = true) :
    Clean (l.map symbolCheck : List (Option (AErr I))) := by
  intro e he
  obtain ⟨x, hx, hs⟩ := List.mem_map.1 he
  simp [symbolCheck, h x hx] at hs

theorem clean_place (b : Bool) : Clean [(placeCheck b : Option (AErr I))] := by
  intro e he
  cases b
  · rw [List.mem_singleton] at he
    cases he; rfl
  · rw [List.mem_singleton] at he
    cases he

mutual
theorem clean_target : ∀ (t : Target) (S : List Str), t.Made →
    Clean (targetChecks S t : List (Option (AErr I)))
  | .var name read _ _, S, h => by
    simp only [targetChecks]
    simp only [Target.Made] at h
    refine Clean.append ?_ (clean_symbol (symbol_of_ident (.inl rfl) h.1))
    split
    · exact clean_uses S [.var name]
    · exact Clean.nil
  | .many ts, S, h => by
    simp only [targetChecks]
    simp only [Target.Made] at h
    exact clean_targets ts S h.2
theorem clean_targets : ∀ (ts : List Target) (S : List Str), Target.MadeAll ts →
    Clean (targetsChecks S ts : List (Option (AErr I)))
  | [], _, _ => by simp only [targetsChecks]; exact Clean.nil
  | t :: ts, S, h => by
    simp only [targetsChecks]
    simp only [Target.MadeAll] at h
    exact (clean_target t S h.1).append (clean_targets ts _ h.2)
end

/-- Modules have proper symbols. -/
def ProperModules (src : Source P I) : Prop :=
  ∀ path table st, src.modules path = .ok (table, st) → ∀ x ∈ table, IsSymbol x.1 = true

theorem clean_load (path : Option Str) : Clean [loadCheck src path] := by
  intro e he
  rw [List.mem_singleton] at he
  unfold loadCheck at he
  split at he <;> cases he
  rfl

theorem clean_present (l : List Str) (sym : Str) : Clean [(presentCheck l sym : Option (AErr I))] := by
  intro e he
  rw [List.mem_singleton] at he
  unfold presentCheck at he
  split at he <;> cases he
  rfl

theorem asName_symbol {sym : Str} {ren : Option Str} (hs : MarkedName sym) (hr : ∀ n ∈ ren, Ident n) :
    IsSymbol (asName sym ren) = true := by
  obtain ⟨m, n, rfl, hm, hn⟩ := hs
  cases ren with
  | none => exact symbol_of_ident hm.symm hn
  | some r => exact symbol_of_ident hm.symm (hr r rfl)

theorem clean_item (hm : ProperModules src) {k : Bool} {path : Option Str}
    (hp : path = none ↔ k = true) {i : ImportItem P} (h : i.Made k) : Clean (itemChecks src path i) := by
  have mods : ∀ x ∈ moduleSymbols src path, IsSymbol x = true := by
    intro x hx
    unfold moduleSymbols at hx
    split at hx
    · rename_i table st he
      obtain ⟨y, hy, rfl⟩ := List.mem_map.1 hx
      exact hm _ _ _ he y hy
    · cases hx
  cases i with
  | wild sl =>
    simp only [itemChecks]
    refine ((clean_load path).append ?_).append (clean_symbols ?_)
    · intro e he
      obtain ⟨x, hx, hs⟩ := List.mem_map.1 he
      have := mods x hx
      match x, this with
      | _ :: _ :: _, _ => simp at hs
    · intro x hx
      apply mods x
      unfold wildNames at hx
      unfold moduleSymbols
      split at hx
      · rename_i table st he
        rw [he]
        exact (List.mem_filter.1 hx).1
      · cases hx
  | name sym ren sl =>
    obtain ⟨hk, hs, hr, -⟩ := h
    simp only [itemChecks]
    have : path ≠ none := fun h => by rw [hp.1 h] at hk; cases hk
    have c1 : Clean [(if path = none then some .assertion else none : Option (AErr I))] := by
      rw [if_neg this]
      intro e he
      rw [List.mem_singleton] at he
      cases he
    exact c1.append ((clean_load path).append ((clean_present _ sym).append
      (clean_symbol (asName_symbol hs hr))))
  | cntx sym ren sl =>
    obtain ⟨-, hs, hr, -⟩ := h
    simp only [itemChecks]
    exact (clean_present _ sym).append (clean_symbol (asName_symbol hs hr))

theorem clean_items (hm : ProperModules src) {k : Bool} {path : Option Str}
    (hp : path = none ↔ k = true) {is : List (ImportItem P)} (h : ∀ i ∈ is, i.Made k) :
    Clean (is.flatMap (itemChecks src path)) := by
  intro e he
  obtain ⟨i, hi, he⟩ := List.mem_flatMap.1 he
  exact clean_item hm hp (h i hi) e he

variable {M : Marks} {U : Uni} (hm : ProperModules src)
include hm

mutual
theorem clean_checks : ∀ (s : Stmt P) (S : List Str) (ctl pro : Bool), s.Made M U →
    Clean (checks src S ctl pro s)
  | .static _, S, ctl, pro, _ => by simp only [checks]; exact Clean.nil
  | .indent _, S, ctl, pro, _ => by simp only [checks]; exact Clean.nil
  | .dedent _, S, ctl, pro, _ => by simp only [checks]; exact Clean.nil
  | .line _, S, ctl, pro, _ => by simp only [checks]; exact clean_uses _ _
  | .xblock _ _ b, S, ctl, pro, h => by
    simp only [checks]
    simp only [Stmt.Made] at h
    exact clean_checks b _ _ _ h.2.2
  | .text _ _, S, ctl, pro, _ => by simp only [checks]; exact clean_uses _ _
  | .comment, S, ctl, pro, _ => by simp only [checks]; exact Clean.nil
  | .embed _, S, ctl, pro, _ => by simp only [checks]; exact clean_uses _ _
  | .struct _ b, S, ctl, pro, h => by
    simp only [checks]
    simp only [Stmt.Made] at h
    exact (clean_uses _ _).append (clean_checks b _ _ _ h.2.2)
  | .defn _ n _ ba as b, S, ctl, pro, h => by
    simp only [checks]
    simp only [Stmt.Made] at h
    obtain ⟨hn, -, hba, has, -, -, hb⟩ := h
    refine ((((clean_place _).append (clean_uses _ _)).append (clean_symbols ?_)).append
      (clean_checks b _ _ _ hb)).append (clean_symbol (symbol_of_ident (.inr rfl) hn))
    intro x hx
    obtain ⟨a, ha, rfl⟩ := List.mem_map.1 hx
    refine symbol_of_ident (.inl rfl) ?_
    rcases List.mem_append.1 ha with ha | ha
    · exact (hba a (by simpa using ha)).1.1
    · exact (has a ha).1
  | .imports true path items, S, ctl, pro, h => by
    simp only [checks]
    simp only [Stmt.Made] at h
    exact (clean_place _).append (clean_items hm (by simpa using h.2.1) h.2.2.2)
  | .imports false path items, S, ctl, pro, h => by
    simp only [checks]
    simp only [Stmt.Made] at h
    exact (clean_place _).append (clean_items hm (by simpa using h.2.1) h.2.2.2)
  | .tryBlock bs, S, ctl, pro, h => by
    simp only [checks]
    simp only [Stmt.Made] at h
    exact clean_checksAll bs _ _ _ h.2.2
  | .ifBlock cs els, S, ctl, pro, h => by
    simp only [checks]
    simp only [Stmt.Made] at h
    exact (clean_checksClauses cs _ _ h.2.1).append (clean_checksOpt els _ _ _ h.2.2.2)
  | .elseClause b, S, ctl, pro, h => by
    simp only [checks]
    simp only [Stmt.Made] at h
    exact clean_checksOpt b _ _ _ h.2
  | .whileBlock t b els, S, ctl, pro, h => by
    simp only [checks]
    simp only [Stmt.Made] at h
    exact ((clean_uses _ _).append (clean_checksOpt b _ _ _ h.2.2.1)).append
      (clean_checksOpt els _ _ _ h.2.2.2.2)
  | .forBlock t e rest, S, ctl, pro, h => by
    simp only [checks]
    simp only [Stmt.Made] at h
    exact ((clean_uses _ _).append (clean_target t _ h.2.1)).append
      (clean_checksFirst rest _ _ h.2.2.2.2)
  | .exprBlock _, S, ctl, pro, _ => by simp only [checks]; exact clean_uses _ _
  | .assign t _ e, S, ctl, pro, h => by
    simp only [checks]
    simp only [Stmt.Made] at h
    exact (clean_uses _ _).append (clean_target t _ h.1)
  | .body ss, S, ctl, pro, h => by
    simp only [checks]
    simp only [Stmt.Made] at h
    exact clean_checksAll ss _ _ _ h.2
  | .pass, S, ctl, pro, _ => by simp only [checks]; exact Clean.nil
theorem clean_checksAll : ∀ (ss : List (Stmt P)) (S : List Str) (ctl pro : Bool), Stmt.MadeAll M U ss →
    Clean (checksAll src S ctl pro ss)
  | [], S, ctl, pro, _ => by simp only [checksAll]; exact Clean.nil
  | s :: ss, S, ctl, pro, h => by
    simp only [checksAll]
    simp only [Stmt.MadeAll] at h
    exact (clean_checks s _ _ _ h.1).append (clean_checksAll ss _ _ _ h.2)
theorem clean_checksOpt : ∀ (o : Option (Stmt P)) (S : List Str) (ctl pro : Bool), Stmt.MadeOpt M U o →
    Clean (checksOpt src S ctl pro o)
  | none, S, ctl, pro, _ => by simp only [checksOpt]; exact Clean.nil
  | some s, S, ctl, pro, h => by
    simp only [checksOpt]
    simp only [Stmt.MadeOpt] at h
    exact clean_checks s _ _ _ h
theorem clean_checksClause : ∀ (c : Expr × Option (Stmt P)) (S : List Str) (pro : Bool),
    Stmt.MadeClause M U c → Clean (checksClause src S pro c)
  | (t, b), S, pro, h => by
    simp only [checksClause]
    simp only [Stmt.MadeClause] at h
    exact (clean_uses _ _).append (clean_checksOpt b _ _ _ h.2.2)
theorem clean_checksClauses : ∀ (cs : List (Expr × Option (Stmt P))) (S : List Str) (pro : Bool),
    Stmt.MadeClauses M U cs → Clean (checksClauses src S pro cs)
  | [], S, pro, _ => by simp only [checksClauses]; exact Clean.nil
  | c :: cs, S, pro, h => by
    simp only [checksClauses]
    simp only [Stmt.MadeClauses] at h
    exact (clean_checksClause c _ _ h.1).append (clean_checksClauses cs _ _ h.2)
theorem clean_checksFirst : ∀ (ss : List (Stmt P)) (S : List Str) (pro : Bool), Stmt.MadeAll M U ss →
    Clean (checksFirst src S pro ss)
  | [], S, pro, _ => by simp only [checksFirst]; exact Clean.nil
  | s :: ss, S, pro, h => by
    simp only [checksFirst]
    simp only [Stmt.MadeAll] at h
    exact clean_checks s _ _ _ h.1
end

omit hm in
theorem firstFailed_mem {l : List (Option (AErr I))} {e : AErr I} (h : firstFailed l = some e) :
    some e ∈ l := by
  induction l with
  | nil => cases h
  | cons a l ih =>
    cases a with
    | none => exact List.mem_cons_of_mem _ (ih h)
    | some e' => cases h; exact List.mem_cons_self

end
end Verif
