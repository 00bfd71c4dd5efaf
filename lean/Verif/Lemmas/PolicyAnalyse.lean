import Verif.Lemmas.PolicyDoc
import Verif.Lemmas.Part

/-! Analysis keeps scripts within a policy. -/

namespace Verif
open Py Spec

section
variable {P W I : Type} {c : Prop}

set_option linter.unusedSectionVars false in
mutual
theorem analyseExpr_tags {b : List (Str × SlotInfo)} : ∀ (e : Expr) {e' : Expr}, (analyseExpr b e : Except (AErr I) _) = .ok e' →
    e.tagsIf c → e'.tagsIf c
  | .root q e, e', h, k => by
    simp only [analyseExpr] at h
    obtain ⟨x, h1, h⟩ := ok_bind h
    cases h
    have := analyseExpr_tags e h1 k
    exact this
  | .tagUse _ _, e', h, k => by
    simp only [analyseExpr] at h
    obtain ⟨x, h1, h⟩ := ok_bind h
    cases h
    exact k
  | .varUse _ _, e', h, k => by
    simp only [analyseExpr] at h
    obtain ⟨x, h1, h⟩ := ok_bind h
    cases h
    exact k
  | .factor a t q, e', h, k => by
    simp only [analyseExpr] at h
    obtain ⟨x, h1, h⟩ := ok_bind h
    obtain ⟨y, h2, h⟩ := ok_bind h
    cases h
    exact ⟨analyseExpr_tags a h1 k.1, analyseTails_tags t h2 k.2⟩
  | .chain _ a _ es, e', h, k | .bits _ a es, e', h, k | .pipeline a es, e', h, k | .andTest a es, e', h, k | .orTest a es, e', h, k => by
    simp only [analyseExpr] at h
    obtain ⟨x, h1, h⟩ := ok_bind h
    obtain ⟨y, h2, h⟩ := ok_bind h
    cases h
    exact ⟨analyseExpr_tags a h1 k.1, analyseExprs_tags es h2 k.2⟩
  | .concat es, e', h, k | .list es, e', h, k | .tuple es, e', h, k | .set es, e', h, k | .dict es, e', h, k | .format es, e', h, k => by
    simp only [analyseExpr] at h
    obtain ⟨y, h2, h⟩ := ok_bind h
    cases h
    exact analyseExprs_tags es h2 k
  | .notTest _ e, e', h, k => by
    simp only [analyseExpr] at h
    obtain ⟨x, h1, h⟩ := ok_bind h
    cases h
    have := analyseExpr_tags e h1 k
    exact this
  | .ifElse x t y, e', h, k => by
    simp only [analyseExpr] at h
    obtain ⟨x', h1, h⟩ := ok_bind h
    obtain ⟨t', h2, h⟩ := ok_bind h
    obtain ⟨y', h3, h⟩ := ok_bind h
    cases h
    exact ⟨analyseExpr_tags x h1 k.1, analyseExpr_tags t h2 k.2.1, analyseExprOpt_tags y h3 k.2.2⟩
  | .static _, e', h, k | .strLit _, e', h, k | .number _, e', h, k | .boolean _, e', h, k | .noneLit, e', h, k | .sliceNone, e', h, k => by
    simp only [analyseExpr] at h
    cases h
    trivial
theorem analyseExprs_tags {b : List (Str × SlotInfo)} : ∀ (e : List Expr) {e' : List Expr}, (analyseExprs b e : Except (AErr I) _) = .ok e' →
    Expr.tagsIfAll c e → Expr.tagsIfAll c e'
  | [], e', h, k => by
    simp only [analyseExprs] at h
    cases h
    trivial
  | e :: es, e', h, k => by
    simp only [analyseExprs] at h
    obtain ⟨x, h1, h⟩ := ok_bind h
    obtain ⟨y, h2, h⟩ := ok_bind h
    cases h
    exact ⟨analyseExpr_tags e h1 k.1, analyseExprs_tags es h2 k.2⟩
theorem analyseExprOpt_tags {b : List (Str × SlotInfo)} : ∀ (e : Option Expr) {e' : Option Expr}, (analyseExprOpt b e : Except (AErr I) _) = .ok e' →
    Expr.tagsIfOpt c e → Expr.tagsIfOpt c e'
  | none, e', h, k => by
    simp only [analyseExprOpt] at h
    cases h
    trivial
  | some e, e', h, k => by
    simp only [analyseExprOpt] at h
    obtain ⟨x, h1, h⟩ := ok_bind h
    cases h
    exact analyseExpr_tags e h1 k
theorem analyseTails_tags {b : List (Str × SlotInfo)} : ∀ (e : List Tail) {e' : List Tail}, (analyseTails b e : Except (AErr I) _) = .ok e' →
    Tail.tagsIfAll c e → Tail.tagsIfAll c e'
  | [], e', h, k => by
    simp only [analyseTails] at h
    cases h
    trivial
  | e :: es, e', h, k => by
    simp only [analyseTails] at h
    obtain ⟨x, h1, h⟩ := ok_bind h
    obtain ⟨y, h2, h⟩ := ok_bind h
    cases h
    exact ⟨analyseTail_tags e h1 k.1, analyseTails_tags es h2 k.2⟩
theorem analyseTail_tags {b : List (Str × SlotInfo)} : ∀ (e : Tail) {e' : Tail}, (analyseTail b e : Except (AErr I) _) = .ok e' →
    e.tagsIf c → e'.tagsIf c
  | .call _ es, e', h, k | .partialCall _ es, e', h, k | .index es, e', h, k => by
    simp only [analyseTail] at h
    obtain ⟨y, h2, h⟩ := ok_bind h
    cases h
    exact analyseExprs_tags es h2 k
  | .member _, e', h, k => by
    simp only [analyseTail] at h
    cases h
    trivial
end

variable {L : Policy P W}

theorem analyseLine_policy {b : List (Str × SlotInfo)} (l : Line) {l' : Line} (h : (analyseLine b l : Except (AErr I) _) = .ok l') (k : L.Line l) :
    L.Line l' := by
  cases l <;> simp only [analyseLine] at h
  · cases h; exact k
  · obtain ⟨x, h1, h⟩ := ok_bind h
    cases h
    exact analyseExprs_tags _ h1 k
  · obtain ⟨x, h1, h⟩ := ok_bind h
    cases h
    exact ⟨k.1, analyseExprs_tags _ h1 k.2⟩

theorem analyseItems_policy {b : List (Str × SlotInfo)} : ∀ (l : List TextItem) {l' : List TextItem},
    (analyseItems b l : Except (AErr I) _) = .ok l' → (∀ i ∈ l, L.Item i) → ∀ i ∈ l', L.Item i
  | [], l', h, k => by
    simp only [analyseItems] at h
    cases h
    simp
  | t :: ts, l', h, k => by
    simp only [analyseItems] at h
    obtain ⟨x, h1, h⟩ := ok_bind h
    obtain ⟨y, h2, h⟩ := ok_bind h
    cases h
    intro i hi
    rcases List.mem_cons.1 hi with rfl | hi
    · have kt := k t (by simp)
      cases t <;> simp only [analyseItem] at h1
      · obtain ⟨z, h3, h1⟩ := ok_bind h1
        cases h1
        exact analyseLine_policy _ h3 kt
      all_goals cases h1; exact kt
    · exact analyseItems_policy ts h2 (fun i hi => k i (by simp [hi])) i hi

theorem analyseNamed_policy {b : List (Str × SlotInfo)} : ∀ (l : List (Str × Expr)) {l' : List (Str × Expr)},
    (analyseNamed b l : Except (AErr I) _) = .ok l' → (∀ i ∈ l, L.key i.1 ∧ i.2.tagsIf L.calls) → ∀ i ∈ l', L.key i.1 ∧ i.2.tagsIf L.calls
  | [], l', h, k => by
    simp only [analyseNamed] at h
    cases h
    simp
  | (n, t) :: ts, l', h, k => by
    simp only [analyseNamed] at h
    obtain ⟨x, h1, h⟩ := ok_bind h
    obtain ⟨y, h2, h⟩ := ok_bind h
    cases h
    intro i hi
    rcases List.mem_cons.1 hi with rfl | hi
    · exact ⟨(k (n, t) (by simp)).1, analyseExpr_tags t h1 (k (n, t) (by simp)).2⟩
    · exact analyseNamed_policy ts h2 (fun i hi => k i (by simp [hi])) i hi

theorem analyseTags_policy {b : List (Str × SlotInfo)} : ∀ (l : List TagExp) {l' : List TagExp},
    (analyseTags b l : Except (AErr I) _) = .ok l' → (∀ i ∈ l, L.Tag i) → ∀ i ∈ l', L.Tag i
  | [], l', h, k => by
    simp only [analyseTags] at h
    cases h
    simp
  | t :: ts, l', h, k => by
    simp only [analyseTags] at h
    obtain ⟨x, h1, h⟩ := ok_bind h
    obtain ⟨y, h2, h⟩ := ok_bind h
    cases h
    intro i hi
    rcases List.mem_cons.1 hi with rfl | hi
    · have kt := k t (by simp)
      cases t <;> simp only [analyseTag] at h1
      · obtain ⟨u, h3, h1⟩ := ok_bind h1
        obtain ⟨v, h4, h1⟩ := ok_bind h1
        obtain ⟨w, h5, h1⟩ := ok_bind h1
        cases h1
        exact ⟨analyseExprs_tags _ h3 kt.1, analyseNamed_policy _ h4 kt.2⟩
      · cases h1; exact kt
    · exact analyseTags_policy ts h2 (fun i hi => k i (by simp [hi])) i hi

/-- A formal attribute of a hypertag. -/
def FormalOk (L : Policy P W) (a : AttrDef) : Prop := L.key a.name ∧ Expr.tagsIfOpt L.calls a.default

theorem analyseDefaults_policy {b : List (Str × SlotInfo)} : ∀ (l : List AttrDef) {l' : List AttrDef},
    (analyseDefaults b l : Except (AErr I) _) = .ok l' → (∀ i ∈ l, FormalOk L i) → ∀ i ∈ l', FormalOk L i
  | [], l', h, k => by
    simp only [analyseDefaults] at h
    cases h
    simp
  | t :: ts, l', h, k => by
    simp only [analyseDefaults] at h
    obtain ⟨x, h1, h⟩ := ok_bind h
    obtain ⟨y, h2, h⟩ := ok_bind h
    cases h
    intro i hi
    rcases List.mem_cons.1 hi with rfl | hi
    · exact ⟨(k t (by simp)).1, analyseExprOpt_tags _ h1 (k t (by simp)).2⟩
    · exact analyseDefaults_policy ts h2 (fun i hi => k i (by simp [hi])) i hi

theorem declareAttrs_policy : ∀ (l : List AttrDef) (c : Ctx) {r : List AttrDef × Ctx},
    (declareAttrs l c : Except (AErr I) _) = .ok r → (∀ i ∈ l, FormalOk L i) → ∀ i ∈ r.1, FormalOk L i
  | [], c, r, h, k => by
    simp only [declareAttrs] at h
    cases h
    simp
  | t :: ts, c, r, h, k => by
    simp only [declareAttrs] at h
    obtain ⟨x, h1, h⟩ := ok_bind h
    obtain ⟨y, h2, h⟩ := ok_bind h
    cases h
    intro i hi
    rcases List.mem_cons.1 hi with rfl | hi
    · exact k t (by simp)
    · exact declareAttrs_policy ts _ h2 (fun i hi => k i (by simp [hi])) i hi

/-! ### Imported values -/

theorem importValue_policy {n : Nat} {sym : Str} {st : StateId} {v : Val P} (h : L.Value n v) : L.Value n (importValue sym st v) := by
  cases h
  case hyper =>
    simp only [importValue]
    split <;> exact .hyper _
  case py h => exact .py h
  case dom h => exact .dom h
  case node h => exact .node h
  case embedded h => exact .embedded h
  case part h1 h2 h3 => exact .part h1 h2 h3
  all_goals constructor

theorem valueSlots_policy {n : Nat} : ∀ (l : List (Str × Val P)) (c : Ctx) {r : List (Str × Slot × Val P) × Ctx},
    (valueSlots l c : Except (AErr I) _) = .ok r → (∀ a ∈ l, L.Value n a.2) → ∀ a ∈ r.1, L.Value n a.2.2
  | [], c, r, h, k => by
    simp only [valueSlots] at h
    cases h
    simp
  | (s, v) :: ts, c, r, h, k => by
    simp only [valueSlots] at h
    obtain ⟨x, h1, h⟩ := ok_bind h
    obtain ⟨y, h2, h⟩ := ok_bind h
    cases h
    intro i hi
    rcases List.mem_cons.1 hi with rfl | hi
    · exact k (s, v) (by simp)
    · exact valueSlots_policy ts _ h2 (fun i hi => k i (by simp [hi])) i hi

theorem publicSymbols_policy {n : Nat} {st : StateId} : ∀ (l : List (Str × Val P)) {r : List (Str × Val P)},
    (publicSymbols st l : Except (AErr I) _) = .ok r → (∀ a ∈ l, L.Value n a.2) → ∀ a ∈ r, L.Value n a.2
  | [], r, h, k => by
    simp only [publicSymbols] at h
    cases h
    simp
  | (s, v) :: ts, r, h, k => by
    simp only [publicSymbols] at h
    split at h
    · cases h
    · obtain ⟨y, h2, h⟩ := ok_bind h
      have ih := publicSymbols_policy ts h2 (fun i hi => k i (by simp [hi]))
      split at h
      · cases h
        intro i hi
        rcases List.mem_cons.1 hi with rfl | hi
        · exact importValue_policy (k (s, v) (by simp))
        · exact ih i hi
      · cases h
        exact ih

variable {src : Source P I} {n : Nat}

theorem analyseImport_policy (hm : ∀ p d st, src.modules p = .ok (d, st) → ∀ a ∈ d, L.Value n a.2) (hc : ∀ a ∈ src.context, L.Value n a.2)
    {path : Option Str} (i : ImportItem P) (c : Ctx) {r : ImportItem P × Ctx} (h : analyseImport src path i c = .ok r) : L.Import n r.1 := by
  have load : ∀ {x}, loadModule src path = .ok x → ∀ a ∈ x.1, L.Value n a.2 := by
    intro x hx
    unfold loadModule at hx
    split at hx
    · next e => cases hx; exact hm _ _ _ e
    · cases hx
  cases i <;> simp only [analyseImport] at h
  · obtain ⟨x, h1, h⟩ := ok_bind h
    obtain ⟨y, h2, h⟩ := ok_bind h
    obtain ⟨z, h3, h⟩ := ok_bind h
    cases h
    intro l e a ha
    cases e
    obtain ⟨b, hb, rfl⟩ := List.mem_map.1 ha
    exact valueSlots_policy _ _ h3 (publicSymbols_policy _ h2 (load h1)) b hb
  · split at h
    · cases h
    · obtain ⟨x, h1, h⟩ := ok_bind h
      split at h
      · cases h
      · next v e =>
        obtain ⟨z, h3, h⟩ := ok_bind h
        cases h
        intro a ea
        cases ea
        exact importValue_policy (load h1 _ (Dict.mem_of_get? e))
  · split at h
    · cases h
    · next v e =>
      obtain ⟨z, h3, h⟩ := ok_bind h
      cases h
      intro a ea
      cases ea
      exact hc _ (Dict.mem_of_get? e)

theorem analyseImports_policy (hm : ∀ p d st, src.modules p = .ok (d, st) → ∀ a ∈ d, L.Value n a.2) (hc : ∀ a ∈ src.context, L.Value n a.2)
    {path : Option Str} : ∀ (l : List (ImportItem P)) (c : Ctx) {r : List (ImportItem P) × Ctx}, analyseImports src path l c = .ok r → ∀ i ∈ r.1, L.Import n i
  | [], c, r, h => by
    simp only [analyseImports] at h
    cases h
    simp
  | t :: ts, c, r, h => by
    simp only [analyseImports] at h
    obtain ⟨x, h1, h⟩ := ok_bind h
    obtain ⟨y, h2, h⟩ := ok_bind h
    cases h
    intro i hi
    rcases List.mem_cons.1 hi with rfl | hi
    · exact analyseImport_policy hm hc t c h1
    · exact analyseImports_policy hm hc ts _ h2 i hi

/-! ### Blocks -/

section
variable (hm : ∀ p d st, src.modules p = .ok (d, st) → ∀ a ∈ d, L.Value n a.2) (hc : ∀ a ∈ src.context, L.Value n a.2)
include hm hc

set_option linter.unusedSectionVars false in
mutual
theorem analyse_policy : ∀ (s : Stmt P) (c : Ctx) {r : Stmt P × Ctx}, analyse src s c = .ok r → L.Stmt n s → L.Stmt n r.1
  | .static _, c, r, h, k | .indent _, c, r, h, k | .dedent _, c, r, h, k | .comment, c, r, h, k | .pass, c, r, h, k => by
    simp only [analyse] at h
    cases h
    exact k
  | .line l, c, r, h, k => by
    simp only [analyse] at h
    obtain ⟨x, h1, h⟩ := ok_bind h
    cases h
    exact analyseLine_policy _ h1 k
  | .xblock m mo b, c, r, h, k => by
    simp only [analyse] at h
    obtain ⟨x, h1, h⟩ := ok_bind h
    cases h
    exact ⟨k.1, analyse_policy b _ h1 k.2⟩
  | .text lead items, c, r, h, k => by
    simp only [analyse] at h
    obtain ⟨x, h1, h⟩ := ok_bind h
    cases h
    exact analyseItems_policy _ h1 k
  | .embed e, c, r, h, k | .exprBlock e, c, r, h, k => by
    simp only [analyse] at h
    obtain ⟨x, h1, h⟩ := ok_bind h
    cases h
    exact analyseExpr_tags _ h1 k
  | .struct tags b, c, r, h, k => by
    simp only [analyse] at h
    obtain ⟨x, h1, h⟩ := ok_bind h
    obtain ⟨y, h2, h⟩ := ok_bind h
    cases h
    exact ⟨analyseTags_policy _ h1 k.1, analyse_policy b _ h2 k.2⟩
  | .defn id name sl ba as b, c, r, h, k => by
    simp only [analyse] at h
    split at h
    · cases h
    · obtain ⟨x1, h1, h⟩ := ok_bind h
      obtain ⟨x2, h2, h⟩ := ok_bind h
      obtain ⟨x3, h3, h⟩ := ok_bind h
      obtain ⟨x4, h4, h⟩ := ok_bind h
      obtain ⟨x5, h5, h⟩ := ok_bind h
      obtain ⟨x6, h6, h⟩ := ok_bind h
      cases h
      obtain ⟨k1, k2, k3⟩ := k
      refine ⟨fun a ha => ?_, declareAttrs_policy _ _ h4 (analyseDefaults_policy _ h2 k2), analyse_policy b _ h5 k3⟩
      have := declareAttrs_policy _ _ h3 (analyseDefaults_policy (L := L) _ h1 (fun i hi => k1 i (by simpa using hi)))
      exact this a (List.mem_of_mem_head? ha)
  | .imports true path items, c, r, h, k => by
    simp only [analyse] at h
    split at h
    · obtain ⟨x1, h1, h⟩ := ok_bind h
      cases h
      exact analyseImports_policy hm hc _ _ h1
    · cases h
  | .imports false path items, c, r, h, k => by
    simp only [analyse] at h
    split at h
    · cases h
    · obtain ⟨x1, h1, h⟩ := ok_bind h
      cases h
      exact analyseImports_policy hm hc _ _ h1
  | .tryBlock bs, c, r, h, k => by
    simp only [analyse] at h
    obtain ⟨x1, h1, h⟩ := ok_bind h
    cases h
    exact analyseBranches_policy bs _ h1 k
  | .ifBlock cs els, c, r, h, k => by
    simp only [analyse] at h
    obtain ⟨x1, h1, h⟩ := ok_bind h
    obtain ⟨x2, h2, h⟩ := ok_bind h
    cases h
    exact ⟨analyseClauses_policy cs _ h1 k.1, analyseElse_policy els _ h2 k.2⟩
  | .elseClause b, c, r, h, k => by
    simp only [analyse] at h
    obtain ⟨x1, h1, h⟩ := ok_bind h
    cases h
    exact analyseOpt_policy b _ h1 k
  | .whileBlock t b els, c, r, h, k => by
    simp only [analyse] at h
    obtain ⟨x0, h0, h⟩ := ok_bind h
    obtain ⟨x1, h1, h⟩ := ok_bind h
    obtain ⟨x2, h2, h⟩ := ok_bind h
    cases h
    exact ⟨analyseExpr_tags _ h0 k.1, analyseOpt_policy b _ h1 k.2.1, analyseElse_policy els _ h2 k.2.2⟩
  | .forBlock t e rest, c, r, h, k => by
    simp only [analyse] at h
    obtain ⟨x0, h0, h⟩ := ok_bind h
    obtain ⟨x1, h1, h⟩ := ok_bind h
    obtain ⟨x2, h2, h⟩ := ok_bind h
    cases h
    exact ⟨analyseExpr_tags _ h0 k.1, analyseFirst_policy rest _ h2 k.2⟩
  | .assign t op e, c, r, h, k => by
    simp only [analyse] at h
    obtain ⟨x0, h0, h⟩ := ok_bind h
    obtain ⟨x1, h1, h⟩ := ok_bind h
    cases h
    exact analyseExpr_tags _ h0 k
  | .body ss, c, r, h, k => by
    simp only [analyse] at h
    obtain ⟨x1, h1, h⟩ := ok_bind h
    cases h
    exact analyseAll_policy ss _ h1 k
theorem analyseAll_policy : ∀ (s : List (Stmt P)) (c : Ctx) {r : List (Stmt P) × Ctx}, analyseAll src s c = .ok r → L.Stmts n s → L.Stmts n r.1
  | [], c, r, h, k => by
    simp only [analyseAll] at h
    cases h
    exact k
  | s :: ss, c, r, h, k => by
    simp only [analyseAll] at h
    obtain ⟨x1, h1, h⟩ := ok_bind h
    obtain ⟨x2, h2, h⟩ := ok_bind h
    cases h
    exact ⟨analyse_policy s _ h1 k.1, analyseAll_policy ss _ h2 k.2⟩
theorem analyseBranches_policy : ∀ (s : List (Stmt P)) (c : Ctx) {r : List (Stmt P) × Ctx}, analyseBranches src s c = .ok r → L.Stmts n s → L.Stmts n r.1
  | [], c, r, h, k => by
    simp only [analyseBranches] at h
    cases h
    exact k
  | s :: ss, c, r, h, k => by
    simp only [analyseBranches] at h
    obtain ⟨x1, h1, h⟩ := ok_bind h
    obtain ⟨x2, h2, h⟩ := ok_bind h
    cases h
    exact ⟨analyse_policy s _ h1 k.1, analyseBranches_policy ss _ h2 k.2⟩
theorem analyseClauses_policy : ∀ (s : List (Expr × Option (Stmt P))) (c : Ctx) {r : List (Expr × Option (Stmt P)) × Ctx}, analyseClauses src s c = .ok r →
    L.Clauses n s → L.Clauses n r.1
  | [], c, r, h, k => by
    simp only [analyseClauses] at h
    cases h
    exact k
  | s :: ss, c, r, h, k => by
    simp only [analyseClauses] at h
    obtain ⟨x1, h1, h⟩ := ok_bind h
    obtain ⟨x2, h2, h⟩ := ok_bind h
    cases h
    exact ⟨analyseClause_policy s _ h1 k.1, analyseClauses_policy ss _ h2 k.2⟩
theorem analyseClause_policy : ∀ (s : Expr × Option (Stmt P)) (c : Ctx) {r : (Expr × Option (Stmt P)) × Ctx}, analyseClause src s c = .ok r →
    L.Clause n s → L.Clause n r.1
  | (t, b), c, r, h, k => by
    simp only [analyseClause] at h
    obtain ⟨x1, h1, h⟩ := ok_bind h
    obtain ⟨x2, h2, h⟩ := ok_bind h
    cases h
    exact ⟨analyseExpr_tags _ h1 k.1, analyseOpt_policy b _ h2 k.2⟩
theorem analyseElse_policy : ∀ (s : Option (Stmt P)) (c : Ctx) {r : Option (Stmt P) × Ctx}, analyseElse src s c = .ok r →
    L.OptStmt n s → L.OptStmt n r.1
  | none, c, r, h, k => by
    simp only [analyseElse] at h
    cases h
    exact k
  | some s, c, r, h, k => by
    simp only [analyseElse] at h
    obtain ⟨x1, h1, h⟩ := ok_bind h
    cases h
    exact analyse_policy s _ h1 k
theorem analyseOpt_policy : ∀ (s : Option (Stmt P)) (c : Ctx) {r : Option (Stmt P) × Ctx}, analyseOpt src s c = .ok r →
    L.OptStmt n s → L.OptStmt n r.1
  | none, c, r, h, k => by
    simp only [analyseOpt] at h
    cases h
    exact k
  | some s, c, r, h, k => by
    simp only [analyseOpt] at h
    obtain ⟨x1, h1, h⟩ := ok_bind h
    cases h
    exact analyse_policy s _ h1 k
theorem analyseFirst_policy : ∀ (s : List (Stmt P)) (c : Ctx) {r : List (Stmt P) × Ctx}, analyseFirst src s c = .ok r → L.Stmts n s → L.Stmts n r.1
  | [], c, r, h, k => by
    simp only [analyseFirst] at h
    cases h
    exact k
  | s :: ss, c, r, h, k => by
    simp only [analyseFirst] at h
    obtain ⟨x1, h1, h⟩ := ok_bind h
    cases h
    exact ⟨analyse_policy s _ h1 k.1, k.2⟩
end

theorem analyseDocument_policy {first : Slot} {globals : Dict Str (Val P)} (hg : ∀ a ∈ globals, L.Value n a.2) {ss : List (Stmt P)}
    (hs : L.Stmts n ss) {doc : Document P} (h : analyseDocument src first globals ss = .ok doc) : L.Doc n doc := by
  unfold analyseDocument at h
  obtain ⟨x1, h1, h⟩ := ok_bind h
  obtain ⟨x2, h2, h⟩ := ok_bind h
  cases h
  refine ⟨fun a ha => ?_, analyseAll_policy hm hc _ _ h2 hs⟩
  obtain ⟨b, hb, rfl⟩ := List.mem_map.1 ha
  exact valueSlots_policy _ _ h1 hg b hb

end

/-! ### Definitions -/

theorem definition_of {ba : Option AttrDef} {as : List AttrDef} {b : Stmt P} (h1 : ∀ a ∈ ba, FormalOk L a) (h2 : ∀ a ∈ as, FormalOk L a)
    (h3 : L.Stmt n b) : L.Definition n (DefInfo.ofDefn ba as b) :=
  ⟨h2, fun a ha => (h1 a ha).1, h3⟩

mutual
theorem defs_policy : ∀ (s : Stmt P), L.Stmt n s → ∀ d ∈ s.defs, L.Definition n d.2
  | .xblock _ _ b, k, d, hd => by
    simp only [Stmt.defs] at hd
    exact defs_policy b k.2 d hd
  | .struct _ b, k, d, hd => by
    simp only [Stmt.defs] at hd
    exact defs_policy b k.2 d hd
  | .defn id _ _ ba as b, k, d, hd => by
    simp only [Stmt.defs] at hd
    rcases List.mem_cons.1 hd with rfl | hd
    · exact definition_of k.1 k.2.1 k.2.2
    · exact defs_policy b k.2.2 d hd
  | .tryBlock bs, k, d, hd => by
    simp only [Stmt.defs] at hd
    exact defsAll_policy bs k d hd
  | .ifBlock cs els, k, d, hd => by
    simp only [Stmt.defs] at hd
    rcases List.mem_append.1 hd with hd | hd
    · exact defsClauses_policy cs k.1 d hd
    · exact defsOpt_policy els k.2 d hd
  | .elseClause b, k, d, hd => by
    simp only [Stmt.defs] at hd
    exact defsOpt_policy b k d hd
  | .whileBlock _ b els, k, d, hd => by
    simp only [Stmt.defs] at hd
    rcases List.mem_append.1 hd with hd | hd
    · exact defsOpt_policy b k.2.1 d hd
    · exact defsOpt_policy els k.2.2 d hd
  | .forBlock _ _ rest, k, d, hd => by
    simp only [Stmt.defs] at hd
    exact defsAll_policy rest k.2 d hd
  | .body ss, k, d, hd => by
    simp only [Stmt.defs] at hd
    exact defsAll_policy ss k d hd
  | .static _, _, d, hd | .indent _, _, d, hd | .dedent _, _, d, hd | .comment, _, d, hd | .pass, _, d, hd | .line _, _, d, hd | .text _ _, _, d, hd
  | .embed _, _, d, hd | .exprBlock _, _, d, hd | .assign _ _ _, _, d, hd | .imports _ _ _, _, d, hd => by
    simp [Stmt.defs] at hd
theorem defsAll_policy : ∀ (s : List (Stmt P)), L.Stmts n s → ∀ d ∈ Stmt.defsAll s, L.Definition n d.2
  | [], _, d, hd => by simp [Stmt.defsAll] at hd
  | s :: ss, k, d, hd => by
    simp only [Stmt.defsAll] at hd
    rcases List.mem_append.1 hd with hd | hd
    · exact defs_policy s k.1 d hd
    · exact defsAll_policy ss k.2 d hd
theorem defsOpt_policy : ∀ (s : Option (Stmt P)), L.OptStmt n s → ∀ d ∈ Stmt.defsOpt s, L.Definition n d.2
  | none, _, d, hd => by simp [Stmt.defsOpt] at hd
  | some s, k, d, hd => by
    simp only [Stmt.defsOpt] at hd
    exact defs_policy s k d hd
theorem defsClause_policy : ∀ (s : Expr × Option (Stmt P)), L.Clause n s → ∀ d ∈ Stmt.defsClause s, L.Definition n d.2
  | (t, b), k, d, hd => by
    simp only [Stmt.defsClause] at hd
    exact defsOpt_policy b k.2 d hd
theorem defsClauses_policy : ∀ (s : List (Expr × Option (Stmt P))), L.Clauses n s → ∀ d ∈ Stmt.defsClauses s, L.Definition n d.2
  | [], _, d, hd => by simp [Stmt.defsClauses] at hd
  | s :: ss, k, d, hd => by
    simp only [Stmt.defsClauses] at hd
    rcases List.mem_append.1 hd with hd | hd
    · exact defsClause_policy s k.1 d hd
    · exact defsClauses_policy ss k.2 d hd
end

end
end Verif
