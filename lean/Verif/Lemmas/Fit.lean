import Verif.Model.Setup
import Verif.Lemmas.Derivations

/-! Nodes after `setup()` fit the kinds that the grammar promises. -/

namespace Verif
open Py Spec

/-- Two lists agree, element by element. -/
inductive All₂ {α β : Type} (R : α → β → Prop) : List α → List β → Prop
  | nil : All₂ R [] []
  | cons {a b as bs} : R a b → All₂ R as bs → All₂ R (a :: as) (b :: bs)

section
variable {α β γ : Type} {R : α → β → Prop}

@[simp] theorem all₂_nil {bs : List β} : All₂ R [] bs ↔ bs = [] := ⟨fun h => by cases h; rfl, fun h => h ▸ .nil⟩
@[simp] theorem all₂_cons {a : α} {as : List α} {bs : List β} :
    All₂ R (a :: as) bs ↔ ∃ b, R a b ∧ ∃ bs', All₂ R as bs' ∧ bs = b :: bs' :=
  ⟨fun h => by cases h with | cons h1 h2 => exact ⟨_, h1, _, h2, rfl⟩, fun ⟨_, h1, _, h2, e⟩ => e ▸ .cons h1 h2⟩

theorem All₂.append {as as' : List α} {bs bs' : List β} (h : All₂ R as bs) (h' : All₂ R as' bs') : All₂ R (as ++ as') (bs ++ bs') := by
  induction h with
  | nil => exact h'
  | cons h1 _ ih => exact .cons h1 ih

theorem All₂.split {as as' : List α} {bs : List β} (h : All₂ R (as ++ as') bs) :
    ∃ cs cs', bs = cs ++ cs' ∧ All₂ R as cs ∧ All₂ R as' cs' := by
  induction as generalizing bs with
  | nil => exact ⟨[], bs, rfl, .nil, h⟩
  | cons a as ih =>
    cases h with
    | cons h1 h2 =>
      obtain ⟨cs, cs', rfl, h3, h4⟩ := ih h2
      exact ⟨_ :: cs, cs', rfl, .cons h1 h3, h4⟩

theorem All₂.length {as : List α} {bs : List β} (h : All₂ R as bs) : bs.length = as.length := by
  induction h with
  | nil => rfl
  | cons _ _ ih => simp [ih]

theorem All₂.right {Q : β → Prop} {as : List α} {bs : List β} (h : All₂ R as bs) (hq : ∀ a ∈ as, ∀ b, R a b → Q b) :
    ∀ b ∈ bs, Q b := by
  induction h with
  | nil => simp
  | cons h1 _ ih =>
    intro b hb
    rcases List.mem_cons.1 hb with rfl | hb
    · exact hq _ (by simp) _ h1
    · exact ih (fun a ha => hq a (by simp [ha])) b hb

/-- Nesting carries over. -/
theorem Spec.WellNested.transfer {op cl : Char → α} {op' cl' : Char → β} {Q : α → Prop} {Q' : β → Prop}
    (hop : ∀ c b, R (op c) b → b = op' c) (hcl : ∀ c b, R (cl c) b → b = cl' c) (hq : ∀ a b, Q a → R a b → Q' b)
    {as : List α} (h : WellNested op cl Q as) : ∀ {bs : List β}, All₂ R as bs → WellNested op' cl' Q' bs := by
  induction h with
  | nil => intro bs hb; cases hb; exact .nil
  | one h1 _ ih =>
    intro bs hb
    cases hb with
    | cons h2 h3 => exact .one (hq _ _ h1 h2) (ih h3)
  | sub hc _ _ ih1 ih2 =>
    intro bs hb
    cases hb with
    | cons h2 h3 =>
      obtain ⟨cs, cs', rfl, h4, h5⟩ := h3.split
      cases h5 with
      | cons h6 h7 =>
        rw [hop _ _ h2, hcl _ _ h6]
        exact .sub hc (ih1 h4) (ih2 h7)

end

section
variable {P : Type} (M : Marks) (U : Uni)

/-- What is known about a static text of the given type. -/
def strOk : NT → Str → Prop
  | .name_id, w => Ident w
  | .name_xml, w => KeyName U w
  | .symbol, w => MarkedName w
  | .margin, w => w ≠ [] ∧ Newlines w
  | .margin_out, w => Newlines w
  | .text, w | .escape, w => OneLine M w
  | .path_import, w => w ≠ []
  | _, _ => True

/-- The node is of the kind, and well made. -/
def Fit : Kind → Built P → Prop
  | .expr, .expr _ e => e.Made ∧ ∀ s, e ≠ .static s
  | .str t, .str t' w => t' = t ∧ strOk M U t w
  | .op, .op _ => True
  | .neg, .neg => True
  | .notKw, .notKw => True
  | .qual, .qual _ => True
  | .tail, .tail t => t.Made
  | .kwarg, .kwarg n e => Ident n ∧ e.Made
  | .line k, .line l => l.Made M ∧ l.kind = k
  | .var, .target t => t.Made ∧ ∃ n, t = .var n false none none
  | .targets, .target t => t.Made ∧ ∃ ts, t = .many ts
  | .formal, .attr a => a.body = false ∧ (∃ n, a.name = some n ∧ Ident n) ∧ Expr.MadeOpt a.expr
  | .bodyFormal, .attr a => a.body = true ∧ (∃ n, a.name = some n ∧ Ident n) ∧ a.expr = none
  | .attr, .attr a => (∀ n ∈ a.name, KeyName U n) ∧ ∃ e, a.expr = some e ∧ e.Made
  | .tag, .tag t => t.Made U
  | .nullTag, .tag t => t = .null
  | .tags, .tags ts => ts = [.null] ∨ ts ≠ [] ∧ ∀ t ∈ ts, t.Made U
  | .item, .item i => i.Made false
  | .cntx, .item i => i.Made true
  | .clause, .clause e b => Stmt.MadeClause M U (e, b)
  | .indent c, .indent d => d = c
  | .dedent c, .dedent d => d = c
  | .stmt r, .stmt s => s.role = r ∧ s.Made M U
  | .document, .document ss => Stmt.MadeDocument M U ss
  | _, _ => False

/-- All nodes, one by one. -/
abbrev FitAll : List Kind → List (Built P) → Prop := All₂ (Fit M U)

variable {M U}

@[simp] theorem fit_expr {b : Built P} : Fit M U .expr b ↔ ∃ r e, b = .expr r e ∧ e.Made ∧ ∀ s, e ≠ .static s := by
  cases b <;> simp only [Fit, reduceCtorEq, false_and, exists_false, Built.expr.injEq]
  exact ⟨fun h => ⟨_, _, ⟨rfl, rfl⟩, h⟩, by rintro ⟨_, _, ⟨rfl, rfl⟩, h⟩; exact h⟩
@[simp] theorem fit_str {t : NT} {b : Built P} : Fit M U (.str t) b ↔ ∃ w, b = .str t w ∧ strOk M U t w := by
  cases b <;> simp [Fit]
  rename_i t' w
  constructor
  · rintro ⟨rfl, h⟩; exact ⟨w, ⟨rfl, rfl⟩, h⟩
  · rintro ⟨w', ⟨rfl, rfl⟩, h⟩; exact ⟨rfl, h⟩
@[simp] theorem fit_op {b : Built P} : Fit M U .op b ↔ ∃ o, b = .op o := by cases b <;> simp [Fit]
@[simp] theorem fit_neg {b : Built P} : Fit M U .neg b ↔ b = .neg := by cases b <;> simp [Fit]
@[simp] theorem fit_notKw {b : Built P} : Fit M U .notKw b ↔ b = .notKw := by cases b <;> simp [Fit]
@[simp] theorem fit_qual {b : Built P} : Fit M U .qual b ↔ ∃ q, b = .qual q := by cases b <;> simp [Fit]
@[simp] theorem fit_tail {b : Built P} : Fit M U .tail b ↔ ∃ t, b = .tail t ∧ t.Made := by cases b <;> simp [Fit]
@[simp] theorem fit_kwarg {b : Built P} : Fit M U .kwarg b ↔ ∃ n e, b = .kwarg n e ∧ Ident n ∧ e.Made := by
  cases b <;> simp only [Fit, reduceCtorEq, false_and, exists_false, Built.kwarg.injEq]
  exact ⟨fun h => ⟨_, _, ⟨rfl, rfl⟩, h⟩, by rintro ⟨_, _, ⟨rfl, rfl⟩, h⟩; exact h⟩
@[simp] theorem fit_line {k : LineKind} {b : Built P} : Fit M U (.line k) b ↔ ∃ l, b = .line l ∧ l.Made M ∧ l.kind = k := by
  cases b <;> simp [Fit]
@[simp] theorem fit_var {b : Built P} : Fit M U .var b ↔ ∃ n, b = .target (.var n false none none) ∧ Ident n := by
  cases b <;> simp [Fit]
  rename_i t
  constructor
  · rintro ⟨h, n, rfl⟩; exact ⟨n, rfl, h.1⟩
  · rintro ⟨n, rfl, h⟩; exact ⟨⟨h, rfl, rfl⟩, n, rfl⟩
@[simp] theorem fit_targets {b : Built P} : Fit M U .targets b ↔ ∃ ts, b = .target (.many ts) ∧ (Target.many ts).Made := by
  cases b <;> simp [Fit]
  rename_i t
  constructor
  · rintro ⟨h, n, rfl⟩; exact ⟨n, rfl, h⟩
  · rintro ⟨n, rfl, h⟩; exact ⟨h, n, rfl⟩
@[simp] theorem fit_formal {b : Built P} :
    Fit M U .formal b ↔ ∃ n e, b = .attr ⟨some n, e, false⟩ ∧ Ident n ∧ Expr.MadeOpt e := by
  cases b <;> simp [Fit]
  rename_i a
  obtain ⟨n, e, b⟩ := a
  constructor
  · rintro ⟨rfl, ⟨n, rfl, h⟩, h'⟩; exact ⟨n, e, rfl, h, h'⟩
  · rintro ⟨n, e, h, h1, h2⟩; cases h; exact ⟨rfl, ⟨n, rfl, h1⟩, h2⟩
@[simp] theorem fit_bodyFormal {b : Built P} : Fit M U .bodyFormal b ↔ ∃ n, b = .attr ⟨some n, none, true⟩ ∧ Ident n := by
  cases b <;> simp [Fit]
  rename_i a
  obtain ⟨n, e, b⟩ := a
  constructor
  · rintro ⟨rfl, ⟨n, rfl, h⟩, rfl⟩; exact ⟨n, rfl, h⟩
  · rintro ⟨n, h, h1⟩; cases h; exact ⟨rfl, ⟨n, rfl, h1⟩, rfl⟩
@[simp] theorem fit_attr {b : Built P} :
    Fit M U .attr b ↔ ∃ n e x, b = .attr ⟨n, some e, x⟩ ∧ (∀ k ∈ n, KeyName U k) ∧ e.Made := by
  cases b <;> simp only [Fit, reduceCtorEq, false_and, exists_false, Built.attr.injEq]
  rename_i a
  obtain ⟨n, e, b⟩ := a
  constructor
  · rintro ⟨h, e, rfl, h'⟩; exact ⟨n, e, b, rfl, h, h'⟩
  · rintro ⟨n, e, x, h, h1, h2⟩; cases h; exact ⟨h1, e, rfl, h2⟩
@[simp] theorem fit_tag {b : Built P} : Fit M U .tag b ↔ ∃ t, b = .tag t ∧ t.Made U := by cases b <;> simp [Fit]
@[simp] theorem fit_nullTag {b : Built P} : Fit M U .nullTag b ↔ b = .tag .null := by cases b <;> simp [Fit]
@[simp] theorem fit_tags {b : Built P} :
    Fit M U .tags b ↔ ∃ ts, b = .tags ts ∧ (ts = [.null] ∨ ts ≠ [] ∧ ∀ t ∈ ts, t.Made U) := by cases b <;> simp [Fit]
@[simp] theorem fit_item {b : Built P} : Fit M U .item b ↔ ∃ i, b = .item i ∧ i.Made false := by cases b <;> simp [Fit]
@[simp] theorem fit_cntx {b : Built P} : Fit M U .cntx b ↔ ∃ i, b = .item i ∧ i.Made true := by cases b <;> simp [Fit]
@[simp] theorem fit_clause {b : Built P} :
    Fit M U .clause b ↔ ∃ e s, b = .clause e s ∧ Stmt.MadeClause M U (e, s) := by
  cases b <;> simp only [Fit, reduceCtorEq, false_and, exists_false, Built.clause.injEq]
  exact ⟨fun h => ⟨_, _, ⟨rfl, rfl⟩, h⟩, by rintro ⟨_, _, ⟨rfl, rfl⟩, h⟩; exact h⟩
@[simp] theorem fit_indent {c : Char} {b : Built P} : Fit M U (.indent c) b ↔ b = .indent c := by cases b <;> simp [Fit]
@[simp] theorem fit_dedent {c : Char} {b : Built P} : Fit M U (.dedent c) b ↔ b = .dedent c := by cases b <;> simp [Fit]
@[simp] theorem fit_stmt {r : Role} {b : Built P} : Fit M U (.stmt r) b ↔ ∃ s, b = .stmt s ∧ s.role = r ∧ s.Made M U := by
  cases b <;> simp [Fit]
@[simp] theorem fit_document {b : Built P} : Fit M U .document b ↔ ∃ ss, b = .document ss ∧ Stmt.MadeDocument M U ss := by
  cases b <;> simp [Fit]

theorem attachQuals_fit {ks : List Kind} {bs : List (Built P)} (h : FitAll M U ks bs) : FitAll M U ks (attachQuals bs) := by
  induction bs using attachQuals.induct generalizing ks with
  | case1 q0 e q rest ih =>
    rw [attachQuals]
    cases h with
    | cons h1 h =>
      cases h with
      | cons h2 h =>
        refine .cons ?_ (.cons h2 (ih h))
        rename_i k _ _
        cases k <;> simp only [Fit] at h1 ⊢
        exact ⟨h1.1, by simp⟩
  | case2 b rest hb ih =>
    cases h with
    | cons h1 h =>
      rw [attachQuals.eq_2 b rest hb]
      exact .cons h1 (ih h)
  | case3 => cases h; exact .nil

/-- The result satisfies `Q`, unless there is an exception other than `malformed`. -/
def Good {α : Type} (Q : α → Prop) : Except SetupErr α → Prop
  | .ok b => Q b
  | .error e => e ≠ .malformed

theorem Good.bind {α β : Type} {Q : α → Prop} {Q' : β → Prop} {r : Except SetupErr α} {f : α → Except SetupErr β}
    (h : Good Q r) (hf : ∀ a, Q a → Good Q' (f a)) : Good Q' (r >>= f) := by
  cases r with
  | ok a => exact hf a h
  | error e => exact h

theorem Good.ok {α : Type} {Q : α → Prop} {a : α} (h : Q a) : Good Q (.ok a) := h

theorem Good.mono {α : Type} {Q Q' : α → Prop} {r : Except SetupErr α} (h : Good Q r) (hq : ∀ a, Q a → Q' a) : Good Q' r := by
  cases r with
  | ok a => exact hq a h
  | error e => exact h

theorem asExprs_fit {ks : List Kind} {bs : List (Built P)} (h : FitAll M U ks bs) (hk : ∀ k ∈ ks, k = .expr) :
    Good (fun es => Expr.MadeAll es ∧ es.length = ks.length) (asExprs bs) := by
  induction h with
  | nil => exact ⟨trivial, rfl⟩
  | cons h1 _ ih =>
    simp only [List.mem_cons, forall_eq_or_imp] at hk
    obtain ⟨rfl, hk⟩ := hk
    obtain ⟨r, e, rfl, he, -⟩ := fit_expr.1 h1
    exact (ih hk).bind fun es hes => ⟨⟨he, hes.1⟩, by simp [hes.2]⟩

theorem asParts_fit {Q : Str → Prop} (hq : Q []) {ks : List Kind} {bs : List (Built P)} (h : FitAll M U ks bs)
    (hk : ∀ k ∈ ks, k = .expr ∨ k = .qual ∨ ∃ t, k = .str t ∧ ∀ w, strOk M U t w → Q w) :
    Good (fun es => Expr.MadeAll es ∧ ∀ s, .static s ∈ es → Q s) (asParts bs) := by
  induction h with
  | nil => exact ⟨trivial, by simp⟩
  | cons h1 _ ih =>
    simp only [List.mem_cons, forall_eq_or_imp] at hk
    obtain ⟨hk1, hk⟩ := hk
    rcases hk1 with rfl | rfl | ⟨t, rfl, ht⟩
    · obtain ⟨r, e, rfl, he, hn⟩ := fit_expr.1 h1
      refine (ih hk).bind fun es hes => ⟨⟨he, hes.1⟩, fun s hs => ?_⟩
      rcases List.mem_cons.1 hs with hs | hs
      · exact absurd hs.symm (hn s)
      · exact hes.2 s hs
    · obtain ⟨q, rfl⟩ := fit_qual.1 h1
      refine (ih hk).bind fun es hes => ⟨⟨trivial, hes.1⟩, fun s hs => ?_⟩
      rcases List.mem_cons.1 hs with hs | hs
      · cases hs; exact hq
      · exact hes.2 s hs
    · obtain ⟨w, rfl, hw⟩ := fit_str.1 h1
      refine (ih hk).bind fun es hes => ⟨⟨trivial, hes.1⟩, fun s hs => ?_⟩
      rcases List.mem_cons.1 hs with hs | hs
      · cases hs; exact ht _ hw
      · exact hes.2 s hs

theorem asArgs_fit {ks : List Kind} {bs : List (Built P)} (h : FitAll M U ks bs) (hk : ∀ k ∈ ks, k = .expr ∨ k = .kwarg) :
    Good (fun r => Expr.MadeAll r.2 ∧ r.1.length = r.2.length ∧ ∀ n, some n ∈ r.1 → Ident n) (asArgs bs) := by
  induction h with
  | nil => exact ⟨trivial, rfl, by simp⟩
  | cons h1 _ ih =>
    simp only [List.mem_cons, forall_eq_or_imp] at hk
    obtain ⟨hk1, hk⟩ := hk
    rcases hk1 with rfl | rfl
    · obtain ⟨r, e, rfl, he, -⟩ := fit_expr.1 h1
      exact (ih hk).bind fun r hr => ⟨⟨he, hr.1⟩, by simp [hr.2.1], by simpa using hr.2.2⟩
    · obtain ⟨n, e, rfl, hn, he⟩ := fit_kwarg.1 h1
      exact (ih hk).bind fun r hr => ⟨⟨he, hr.1⟩, by simp [hr.2.1], by simpa using ⟨hn, hr.2.2⟩⟩

theorem asTails_fit {ks : List Kind} {bs : List (Built P)} (hk : ∃ ts, (ks = ts ∨ ks = ts ++ [.qual]) ∧ ∀ k ∈ ts, k = .tail)
    (h : FitAll M U ks bs) : Good (fun r => Tail.MadeAll r.1) (asTails bs) := by
  obtain ⟨ts, hk, ht⟩ := hk
  induction ts generalizing ks bs with
  | nil =>
    rcases hk with rfl | rfl
    · cases h; exact trivial
    · simp only [List.nil_append, all₂_cons, fit_qual, all₂_nil] at h
      obtain ⟨_, ⟨q, rfl⟩, _, rfl, rfl⟩ := h
      exact trivial
  | cons t ts ih =>
    simp only [List.mem_cons, forall_eq_or_imp] at ht
    obtain ⟨rfl, ht⟩ := ht
    have : ∃ ks', ks = .tail :: ks' ∧ (ks' = ts ∨ ks' = ts ++ [.qual]) := by
      rcases hk with rfl | rfl
      · exact ⟨_, rfl, .inl rfl⟩
      · exact ⟨_, rfl, .inr rfl⟩
    obtain ⟨ks', rfl, hk'⟩ := this
    simp only [all₂_cons, fit_tail] at h
    obtain ⟨_, ⟨t, rfl, ht1⟩, bs', hb, rfl⟩ := h
    exact (ih hb hk' ht).bind fun r hr => ⟨ht1, hr⟩

/-- `op1 e1 op2 e2 ..` -/
inductive Chained : List Kind → Prop
  | nil : Chained []
  | cons {ks} : Chained ks → Chained (.op :: .expr :: ks)

theorem asChain_fit {ks : List Kind} {bs : List (Built P)} (hk : Chained ks) (h : FitAll M U ks bs) :
    Good (fun r => Expr.MadeAll r.2 ∧ r.1.length = r.2.length) (asChain bs) := by
  induction hk generalizing bs with
  | nil => cases h; exact ⟨trivial, rfl⟩
  | cons _ ih =>
    simp only [all₂_cons, fit_op, fit_expr] at h
    obtain ⟨_, ⟨o, rfl⟩, _, ⟨_, ⟨r, e, rfl, he, -⟩, bs', hb, rfl⟩, rfl⟩ := h
    exact (ih hb).bind fun r hr => ⟨⟨he, hr.1⟩, by simp [hr.2]⟩

theorem asNots_fit {ks : List Kind} {bs : List (Built P)} (hk : ∀ k ∈ ks, k = .notKw) (h : FitAll M U (ks ++ [.expr]) bs) :
    Good (fun r => r.2.Made) (asNots bs) := by
  induction ks generalizing bs with
  | nil =>
    simp only [List.nil_append, all₂_cons, fit_expr, all₂_nil] at h
    obtain ⟨_, ⟨r, e, rfl, he, -⟩, _, rfl, rfl⟩ := h
    exact he
  | cons k ks ih =>
    simp only [List.mem_cons, forall_eq_or_imp] at hk
    obtain ⟨rfl, hk⟩ := hk
    simp only [List.cons_append, all₂_cons, fit_notKw] at h
    obtain ⟨_, rfl, bs', hb, rfl⟩ := h
    exact (ih hk hb).bind fun r hr => hr

variable (M U) in
/-- Parts of text blocks, and their nodes. -/
def ItemFit : Kind → TextItem → Prop
  | .line k, .line l => l.Made M ∧ l.kind = k
  | .str .margin, .margin s => s ≠ [] ∧ Newlines s
  | .indent c, .indent d => d = c
  | .dedent c, .dedent d => d = c
  | _, _ => False

theorem Spec.WellNested.mem {α : Type} {op cl : Char → α} {Q : α → Prop} {as : List α} (h : WellNested op cl Q as) :
    ∀ a ∈ as, Q a ∨ ∃ c, (c = ' ' ∨ c = '\t') ∧ (a = op c ∨ a = cl c) := by
  induction h with
  | nil => simp
  | one h1 _ ih =>
    intro a ha
    rcases List.mem_cons.1 ha with rfl | ha
    · exact .inl h1
    · exact ih a ha
  | @sub c _ _ hc _ _ ih1 ih2 =>
    intro a ha
    simp only [List.mem_cons, List.mem_append] at ha
    rcases ha with rfl | ha | rfl | ha
    · exact .inr ⟨c, hc, .inl rfl⟩
    · exact ih1 a ha
    · exact .inr ⟨c, hc, .inr rfl⟩
    · exact ih2 a ha

theorem asItems_fit {k : LineKind} {ks : List Kind} {bs : List (Built P)} (hk : kLines k ks) (h : FitAll M U ks bs) :
    Good (WellNested TextItem.indent TextItem.dedent (TextItem.Made M k)) (asItems bs) := by
  have key : Good (fun is => All₂ (ItemFit M) ks is) (asItems bs) := by
    have hm := hk.mem
    clear hk
    induction h with
    | nil => exact .nil
    | cons h1 _ ih =>
      simp only [List.mem_cons, forall_eq_or_imp] at hm
      obtain ⟨hm1, hm⟩ := hm
      rcases hm1 with (rfl | rfl) | ⟨c, _, rfl | rfl⟩
      · obtain ⟨l, rfl, hl⟩ := fit_line.1 h1
        exact (ih hm).bind fun is his => .cons hl his
      · obtain ⟨l, rfl, hl⟩ := fit_str.1 h1
        exact (ih hm).bind fun is his => .cons hl his
      · obtain rfl := fit_indent.1 h1
        exact (ih hm).bind fun is his => .cons rfl his
      · obtain rfl := fit_dedent.1 h1
        exact (ih hm).bind fun is his => .cons rfl his
  refine key.mono fun is his => hk.transfer ?_ ?_ ?_ his
  · intro c b h; cases b <;> simp_all [ItemFit]
  · intro c b h; cases b <;> simp_all [ItemFit]
  · rintro a b (rfl | rfl) h <;> cases b <;> simp_all [ItemFit, TextItem.Made]

variable (M U) in
/-- Statements, and their nodes. -/
def StmtFit : Kind → Stmt P → Prop
  | .line k, .line l => l.Made M ∧ l.kind = k
  | .str .margin, .static s => s ≠ [] ∧ Newlines s
  | .indent c, .indent d => d = c
  | .dedent c, .dedent d => d = c
  | .stmt r, s => s.role = r ∧ s.Made M U
  | _, _ => False

/-- Kinds of nodes that are statements. -/
def Kind.isStmt : Kind → Prop
  | .line _ => True
  | .str .margin => True
  | .indent c => c = ' ' ∨ c = '\t'
  | .dedent c => c = ' ' ∨ c = '\t'
  | .stmt _ => True
  | _ => False

theorem asStmts_fit {ks : List Kind} {bs : List (Built P)} (hk : ∀ k ∈ ks, k.isStmt) (h : FitAll M U ks bs) :
    Good (fun ss => All₂ (StmtFit M U) ks ss ∧ Stmt.MadeAll M U ss) (asStmts bs) := by
  induction h with
  | nil => exact ⟨.nil, trivial⟩
  | @cons k b _ _ h1 _ ih =>
    simp only [List.mem_cons, forall_eq_or_imp] at hk
    obtain ⟨hk1, hk⟩ := hk
    have ih := ih hk
    cases k <;> simp only [Kind.isStmt] at hk1
    · rename_i t
      cases t <;> simp only at hk1
      obtain ⟨l, rfl, hl⟩ := fit_str.1 h1
      exact ih.bind fun is his => ⟨.cons hl his.1, hl, his.2⟩
    · obtain ⟨l, rfl, hl⟩ := fit_line.1 h1
      exact ih.bind fun is his => ⟨.cons hl his.1, hl.1, his.2⟩
    · obtain rfl := fit_indent.1 h1
      exact ih.bind fun is his => ⟨.cons rfl his.1, hk1, his.2⟩
    · obtain rfl := fit_dedent.1 h1
      exact ih.bind fun is his => ⟨.cons rfl his.1, hk1, his.2⟩
    · obtain ⟨l, rfl, hl⟩ := fit_stmt.1 h1
      exact ih.bind fun is his => ⟨.cons hl his.1, hl.2, his.2⟩

theorem blocks_fit {ks : List Kind} {ss : List (Stmt P)} (hk : kBlocks ks) (h : All₂ (StmtFit M U) ks ss) : Stmt.Blocks ss := by
  refine hk.transfer ?_ ?_ ?_ h
  · intro c b h; cases b <;> simp_all [StmtFit]
  · intro c b h; cases b <;> simp_all [StmtFit]
  · rintro a b rfl h; exact h.1

theorem kBlocks.isStmt {ks : List Kind} (h : kBlocks ks) : ∀ k ∈ ks, k.isStmt := by
  intro k hk
  rcases h.mem k hk with rfl | ⟨c, hc, rfl | rfl⟩
  · trivial
  · exact hc
  · exact hc

theorem asTargets_fit {ks : List Kind} {bs : List (Built P)} (hk : ∀ k ∈ ks, k = .var ∨ k = .targets) (h : FitAll M U ks bs) :
    Good (fun ts => Target.MadeAll ts ∧ ts.length = ks.length) (asTargets bs) := by
  induction h with
  | nil => exact ⟨trivial, rfl⟩
  | cons h1 _ ih =>
    simp only [List.mem_cons, forall_eq_or_imp] at hk
    obtain ⟨hk1, hk⟩ := hk
    rcases hk1 with rfl | rfl
    · obtain ⟨n, rfl, hn⟩ := fit_var.1 h1
      exact (ih hk).bind fun r hr => ⟨⟨⟨hn, rfl, rfl⟩, hr.1⟩, by simp [hr.2]⟩
    · obtain ⟨ts, rfl, ht⟩ := fit_targets.1 h1
      exact (ih hk).bind fun r hr => ⟨⟨ht, hr.1⟩, by simp [hr.2]⟩

theorem asTags_fit {ks : List Kind} {bs : List (Built P)} (hk : ∀ k ∈ ks, k = .tag) (h : FitAll M U ks bs) :
    Good (fun ts => ts.length = ks.length ∧ ∀ t ∈ ts, t.Made U) (asTags bs) := by
  induction h with
  | nil => exact ⟨rfl, by simp⟩
  | cons h1 _ ih =>
    simp only [List.mem_cons, forall_eq_or_imp] at hk
    obtain ⟨rfl, hk⟩ := hk
    obtain ⟨t, rfl, ht⟩ := fit_tag.1 h1
    exact (ih hk).bind fun r hr => ⟨by simp [hr.1], by simpa using ⟨ht, hr.2⟩⟩

theorem asItemsOf_fit {b : Bool} {ks : List Kind} {bs : List (Built P)} (hk : ∀ k ∈ ks, k = if b then .cntx else .item)
    (h : FitAll M U ks bs) : Good (fun is => is.length = ks.length ∧ ∀ i ∈ is, i.Made b) (asItemsOf bs) := by
  induction h with
  | nil => exact ⟨rfl, by simp⟩
  | cons h1 _ ih =>
    simp only [List.mem_cons, forall_eq_or_imp] at hk
    obtain ⟨hk1, hk⟩ := hk
    cases b
    · obtain rfl := hk1
      obtain ⟨t, rfl, ht⟩ := fit_item.1 h1
      exact (ih hk).bind fun r hr => ⟨by simp [hr.1], by simpa using ⟨ht, hr.2⟩⟩
    · obtain rfl := hk1
      obtain ⟨t, rfl, ht⟩ := fit_cntx.1 h1
      exact (ih hk).bind fun r hr => ⟨by simp [hr.1], by simpa using ⟨ht, hr.2⟩⟩

theorem madeAll_append {es es' : List Expr} (h : Expr.MadeAll es) (h' : Expr.MadeAll es') : Expr.MadeAll (es ++ es') := by
  induction es with
  | nil => exact h'
  | cons e es ih => exact ⟨h.1, ih h.2⟩

theorem collectAttrs_fit {ks : List Kind} {bs : List (Built P)} (hk : ∀ k ∈ ks, k = .attr) (h : FitAll M U ks bs) :
    ∀ (us : List Expr) (ns : List (Str × Expr)), Expr.MadeAll us → (∀ n ∈ ns, KeyName U n.1 ∧ n.2.Made) →
      Good (fun r => Expr.MadeAll r.1 ∧ ∀ n ∈ r.2, KeyName U n.1 ∧ n.2.Made) (collectAttrs bs us ns) := by
  induction h with
  | nil => intro us ns h1 h2; exact ⟨h1, h2⟩
  | cons h1 _ ih =>
    intro us ns hu hn
    simp only [List.mem_cons, forall_eq_or_imp] at hk
    obtain ⟨rfl, hk⟩ := hk
    obtain ⟨n, e, x, rfl, hn', he⟩ := fit_attr.1 h1
    cases n with
    | none =>
      simp only [collectAttrs]
      split
      · exact SetupErr.noConfusion
      · exact ih hk _ _ (madeAll_append hu ⟨he, trivial⟩) hn
    | some n =>
      simp only [collectAttrs]
      refine ih hk _ _ hu ?_
      intro p hp
      rcases List.mem_append.1 hp with hp | hp
      · exact hn p hp
      · simp only [List.mem_cons, List.not_mem_nil, or_false] at hp
        subst hp
        exact ⟨hn' n rfl, he⟩

theorem splitDef_fit {ks : List Kind} {k : Kind} {bs : List (Built P)} (hk : ∀ k ∈ ks, k = .formal)
    (hb : k = .stmt .text ∨ k = .stmt .body) (h : FitAll M U (ks ++ [k]) bs) :
    Good (fun r => (∀ a ∈ r.1, a.1.Made ∧ a.2 = false) ∧ r.2.isBody ∧ r.2.Made M U) (splitDef bs) := by
  induction ks generalizing bs with
  | nil =>
    rcases hb with rfl | rfl <;>
    · simp only [List.nil_append, all₂_cons, fit_stmt, all₂_nil] at h
      obtain ⟨_, ⟨s, rfl, hr, hs⟩, _, rfl, rfl⟩ := h
      exact ⟨by simp, by simp [Stmt.isBody, hr], hs⟩
  | cons k ks ih =>
    simp only [List.mem_cons, forall_eq_or_imp] at hk
    obtain ⟨rfl, hk⟩ := hk
    simp only [List.cons_append, all₂_cons, fit_formal] at h
    obtain ⟨_, ⟨n, e, rfl, hn, he⟩, bs', hb, rfl⟩ := h
    refine (ih hk hb).bind fun r hr => ⟨?_, hr.2⟩
    intro a ha
    rcases List.mem_cons.1 ha with rfl | ha
    · exact ⟨⟨hn, rfl, he⟩, rfl⟩
    · exact hr.1 a ha

theorem splitClauses_fit {ks ks' : List Kind} {bs : List (Built P)} (hk : ∀ k ∈ ks, k = .clause)
    (he : ks' = [] ∨ ks' = [.stmt .els]) (h : FitAll M U (ks ++ ks') bs) :
    Good (fun r => r.1.length = ks.length ∧ Stmt.MadeClauses M U r.1 ∧ (∀ s ∈ r.2, s.role = .els) ∧ Stmt.MadeOpt M U r.2)
      (splitClauses bs) := by
  induction ks generalizing bs with
  | nil =>
    rcases he with rfl | rfl
    · cases h; exact ⟨rfl, trivial, by simp, trivial⟩
    · simp only [List.nil_append, all₂_cons, fit_stmt, all₂_nil] at h
      obtain ⟨_, ⟨s, rfl, hr, hs⟩, _, rfl, rfl⟩ := h
      exact ⟨rfl, trivial, by simpa using hr, hs⟩
  | cons k ks ih =>
    simp only [List.mem_cons, forall_eq_or_imp] at hk
    obtain ⟨rfl, hk⟩ := hk
    simp only [List.cons_append, all₂_cons, fit_clause] at h
    obtain ⟨_, ⟨e, b, rfl, hc⟩, bs', hb, rfl⟩ := h
    exact (ih hk hb).bind fun r hr => ⟨by simp [hr.1], ⟨hc, hr.2.1⟩, hr.2.2⟩

end
end Verif
