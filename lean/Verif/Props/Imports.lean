import Verif.Lemmas.Context
import Verif.Lemmas.Part
import Verif.Props.Scope

/-! Properties of imports and of the context: C59, C60, C62. -/

namespace Verif
open Py

section
variable {P X W I : Type}

/-! ### C59 Context blocks are confined to the prolog and see only declared symbols -/

/-- Indentation or margin, not a block. -/
def Stmt.marker : Stmt P → Prop
  | .indent _ => True
  | .dedent _ => True
  | .static _ => True
  | _ => False

theorem topLevel_split {s : Stmt P} (h : s.topLevel) : s.marker ∨ ∃ m mo b, s = .xblock m mo b := by
  cases s with
  | xblock m mo b => exact .inr ⟨m, mo, b, rfl⟩
  | indent c => exact .inl trivial
  | dedent c => exact .inl trivial
  | static c => exact .inl trivial
  | _ => exact h.elim

theorem marker_free {s : Stmt P} (h : s.marker) : s.contextFree := by
  cases s with
  | indent c => simp only [Stmt.contextFree, Stmt.imps]
  | dedent c => simp only [Stmt.contextFree, Stmt.imps]
  | static c => simp only [Stmt.contextFree, Stmt.imps]
  | _ => exact h.elim

theorem leaveProlog_or (b : Stmt P) (c : Ctx) :
    (b = .comment ∨ ∃ path items, b = .imports true path items) ∨ (leaveProlog b c).prolog = false := by
  unfold leaveProlog
  split
  · exact .inl (.inl rfl)
  · exact .inl (.inr ⟨_, _, rfl⟩)
  · exact .inr rfl

/-- While the prolog lasts there are comments and context blocks only. -/
theorem analyseAll_prolog (src : Source P I) (ss : List (Stmt P)) (c : Ctx)
    (ht : ∀ s ∈ ss, s.topLevel) (hn : Stmt.tailsAll (fun _ => False) ss) :
    Post (fun r => r.2.prolog = true → ∀ s ∈ ss, s.inProlog ∨ s.marker) (analyseAll src ss c) := by
  induction ss generalizing c with
  | nil => exact .pure (fun _ s hs => by cases hs)
  | cons s ss ih =>
    simp only [Stmt.tailsAll] at hn
    simp only [analyseAll]
    refine (analyse_ctx src s c hn.1).and
      (R := fun r => r.2.prolog = true → s.inProlog ∨ s.marker) ?_ |>.bind ?_
    · rcases topLevel_split (ht s (by simp)) with hm | ⟨m, mo, b, rfl⟩
      · exact fun _ _ _ => .inr hm
      · simp only [analyse]
        have hn1 : b.noForElse := by
          have := hn.1
          simp only [Stmt.tails] at this
          exact this
        refine (analyse_ctx src b _ hn1).bind ?_
        rintro ⟨b', c1⟩ h
        refine .pure (fun hp => ?_)
        rcases leaveProlog_or b c with (rfl | ⟨path, items, rfl⟩) | h'
        · exact .inl (.inl ⟨_, _, rfl⟩)
        · exact .inl (.inr ⟨_, _, _, _, rfl⟩)
        · rw [(h.1 h').1] at hp
          cases hp
    · rintro ⟨s', c1⟩ ⟨h1, h2⟩
      refine (analyseAll_ctx src ss c1 hn.2).and
        (ih c1 (fun t ht' => ht t (List.mem_cons_of_mem _ ht')) hn.2) |>.bind ?_
      rintro ⟨ss', c2⟩ ⟨h3, h4⟩
      refine .pure (fun hp t ht' => ?_)
      rcases List.mem_cons.1 ht' with rfl | ht'
      · refine h2 ?_
        cases hc : c1.prolog with
        | true => rfl
        | false =>
          have hp : c2.prolog = true := hp
          rw [(h3.1 hc).1] at hp
          cases hp
      · exact h4 hp t ht'

/-- In an accepted document, a context block is a top-level block, and only comments and other context
blocks are before it. Missing for the full claim: `else` clauses of `for` blocks, see
`C59_not_in_general`. -/
theorem C59_placement_partial (src : Source P I) (first : Slot) (globals : Dict Str (Val P))
    (pre : List (Stmt P)) (s : Stmt P) (post : List (Stmt P)) (doc : Document P)
    (ht : ∀ t ∈ pre ++ s :: post, t.topLevel)
    (hn : ∀ t ∈ pre ++ s :: post, t.noForElse)
    (h : analyseDocument src first globals (pre ++ s :: post) = .ok doc) (hs : ¬ s.contextFree) :
    (∃ m mo path items, s = .xblock m mo (.imports true path items)) ∧
    ∀ t ∈ pre, t.inProlog ∨ t.marker := by
  have hall : ∀ l : List (Stmt P), (∀ t ∈ l, t.noForElse) → Stmt.tailsAll (fun _ => False) l := by
    intro l hl
    induction l with
    | nil => simp only [Stmt.tailsAll]
    | cons a l ih =>
      simp only [Stmt.tailsAll]
      exact ⟨hl a (by simp), ih (fun t ht => hl t (by simp [ht]))⟩
  rw [analyseDocument] at h
  obtain ⟨⟨ins, c1⟩, h1, h⟩ := ok_bind h
  obtain ⟨⟨ch, c2⟩, h2, h⟩ := ok_bind h
  cases hpre : analyseAll src pre c1 with
  | error e =>
    exfalso
    have : ∀ (l : List (Stmt P)) (c : Ctx), analyseAll src l c = .error e →
        analyseAll src (l ++ s :: post) c = .error e := by
      intro l
      induction l with
      | nil => intro c hc; cases hc
      | cons a l ih =>
        intro c hc
        simp only [analyseAll, List.cons_append] at hc ⊢
        cases ha : analyse src a c with
        | error e' => rw [ha] at hc; exact hc
        | ok r =>
          rw [ha] at hc
          have hc' : (analyseAll src l r.2 >>= fun x => Pure.pure (r.1 :: x.1, x.2)) = .error e := hc
          cases hl : analyseAll src l r.2 with
          | ok r' => rw [hl] at hc'; cases hc'
          | error e' =>
            rw [hl] at hc'
            cases hc'
            show (analyseAll src (l ++ s :: post) r.2 >>= fun x => Pure.pure (r.1 :: x.1, x.2)) = .error e
            rw [ih r.2 hl]
            rfl
    rw [this pre c1 hpre] at h2
    cases h2
  | ok r =>
    obtain ⟨pre', c1'⟩ := r
    obtain ⟨s', c3, post', k1, k2, -⟩ := analyseAll_split src hpre h2
    have hp : c1'.prolog = true := by
      cases hc : c1'.prolog with
      | true => rfl
      | false =>
        have := (analyse_ctx src s c1' (hn s (by simp)) _ k1).1 hc
        exact absurd this.2 hs
    refine ⟨?_, analyseAll_prolog src pre c1 (fun t ht' => ht t (by simp [ht']))
      (hall pre (fun t ht' => hn t (by simp [ht']))) _ hpre hp⟩
    rcases topLevel_split (ht s (by simp)) with hm | ⟨m, mo, b, rfl⟩
    · exact absurd (marker_free hm) hs
    · rcases leaveProlog_or b c1' with (rfl | ⟨path, items, rfl⟩) | h'
      · exact absurd (by simp only [Stmt.contextFree, Stmt.imps]) hs
      · exact ⟨_, _, _, _, rfl⟩
      · exfalso
        refine hs ?_
        simp only [analyse] at k1
        obtain ⟨⟨b', c4⟩, k3, -⟩ := ok_bind k1
        have hn1 : b.noForElse := by
          have := hn (.xblock m mo b) (by simp)
          simp only [Stmt.noForElse, Stmt.tails] at this
          exact this
        have := ((analyse_ctx src b _ hn1 _ k3).1 h').2
        simp only [Stmt.contextFree, Stmt.imps]
        exact this

/-- The rejection is a `SyntaxError`: `c` is the context after a block `t` that is neither a comment nor a
context block. -/
theorem C59_syntax_error (src : Source P I) (pre : List (Stmt P)) (t : Stmt P) (post : List (Stmt P))
    (c0 c : Ctx) (pre' : List (Stmt P)) (hc : analyseAll src (pre ++ t :: post) c0 = .ok (pre', c))
    (ht : ∀ s ∈ pre ++ t :: post, s.topLevel) (hn : Stmt.tailsAll (fun _ => False) (pre ++ t :: post))
    (hp : ¬ t.inProlog) (hm : ¬ t.marker) (m : Str) (mo : Option Modifier) (path : Option Str)
    (items : List (ImportItem P)) :
    analyse src (.xblock m mo (.imports true path items)) c = .error .syntaxErr := by
  have : c.prolog = false := by
    cases hcp : c.prolog with
    | false => rfl
    | true =>
      rcases analyseAll_prolog src _ c0 ht hn _ hc hcp t (by simp) with h | h
      · exact absurd h hp
      · exact absurd h hm
  simp only [analyse, leaveProlog, this]
  rfl

/-- Symbols of the context that are not declared make no difference. -/
theorem C59_undeclared (src src' : Source P I) (first : Slot) (globals : Dict Str (Val P))
    (children : List (Stmt P)) (Q : Str → Prop) (hq : ∀ s ∈ children, s.declared Q)
    (hm : src.modules = src'.modules)
    (hc : ∀ sym, Q sym → Dict.get? src.context sym = Dict.get? src'.context sym) :
    analyseDocument src first globals children = analyseDocument src' first globals children := by
  have hall : Stmt.impsAll (fun _ items => DeclaredIn Q items) children := by
    clear hm hc
    induction children with
    | nil => simp only [Stmt.impsAll]
    | cons a l ih =>
      simp only [Stmt.impsAll]
      exact ⟨hq a (by simp), ih (fun t ht => hq t (by simp [ht]))⟩
  simp only [analyseDocument]
  congr 1
  funext r
  rw [analyseAll_same ⟨hm, hc⟩ children r.2 hall]

theorem impsAll_iff (K : Bool → List (ImportItem P) → Prop) (l : List (Stmt P)) :
    Stmt.impsAll K l ↔ ∀ s ∈ l, s.imps K := by
  induction l with
  | nil => simp [Stmt.impsAll]
  | cons a l ih => simp [Stmt.impsAll, ih]

/-- In an accepted document, all symbols declared by context blocks are in the context. Missing for the
full claim: `else` clauses of `for` blocks. -/
theorem C59_present_partial (src : Source P I) (first : Slot) (globals : Dict Str (Val P))
    (children : List (Stmt P)) (doc : Document P) (hn : Stmt.tailsAll (fun _ => False) children)
    (h : analyseDocument src first globals children = .ok doc) :
    ∀ s ∈ children, s.declared (fun sym => (Dict.get? src.context sym).isSome) := by
  rw [analyseDocument] at h
  obtain ⟨⟨ins, c1⟩, h1, h⟩ := ok_bind h
  obtain ⟨⟨ch, c2⟩, h2, h⟩ := ok_bind h
  exact (impsAll_iff _ _).1 (analyseAll_ctx src children c1 hn _ h2).2

/-- The error is `ImportError`, for the first symbol of the block that is missing. -/
theorem C59_missing (src : Source P I) (m : Str) (mo : Option Modifier) (path : Option Str)
    (pre : List (ImportItem P)) (sym : Str) (ren : Option Str) (sl : Option (Slot × Val P))
    (post : List (ImportItem P)) (c c1 : Ctx) (pre' : List (ImportItem P)) (hp : c.prolog = true)
    (hpre : analyseImports src path pre c = .ok (pre', c1)) (hs : Dict.get? src.context sym = .none) :
    analyse src (.xblock m mo (.imports true path (pre ++ .cntx sym ren sl :: post))) c =
      .error (.importErr sym) := by
  have key : ∀ (pre pre' : List (ImportItem P)) (c : Ctx), analyseImports src path pre c = .ok (pre', c1) →
      analyseImports src path (pre ++ .cntx sym ren sl :: post) c = .error (.importErr sym) := by
    intro pre
    induction pre with
    | nil =>
      intro pre' c hc
      simp only [List.nil_append, analyseImports, analyseImport, hs]
      rfl
    | cons i is ih =>
      intro pre' c hc
      simp only [analyseImports, List.cons_append] at hc ⊢
      obtain ⟨⟨i', c2⟩, h1, hc⟩ := ok_bind hc
      obtain ⟨⟨is', c3⟩, h2, hc⟩ := ok_bind hc
      cases hc
      rw [h1]
      show (analyseImports src path (is ++ .cntx sym ren sl :: post) c2 >>= fun x =>
        Pure.pure (i' :: x.1, x.2)) = .error (.importErr sym)
      rw [ih _ _ h2]
      rfl
  simp only [analyse, leaveProlog, hp]
  show (analyseImports src path (pre ++ .cntx sym ren sl :: post) c >>= _) >>= _ = _
  rw [key pre pre' c hpre]
  rfl

/-- A symbol that is bound to the value `v` after analysis and translation. -/
def BoundTo (c : Ctx) (σ : StateId) (M : Machine P W) (sym : Str) (v : Val P) : Prop :=
  ∃ info, c.get sym = some info ∧ (M.states σ).values info.id = some v

theorem lookupBind_append (a b : List (Str × SlotInfo)) (sym : Str) :
    lookupBind (a ++ b) sym = (lookupBind b sym).or (lookupBind a sym) := by
  induction a with
  | nil => simp [lookupBind]
  | cons x a ih =>
    obtain ⟨k, v⟩ := x
    simp only [List.cons_append, lookupBind, ih]
    cases lookupBind b sym <;> simp

theorem renamed_eq (mark : Char) (name : Str) (ren : Option Str) :
    renamed (mark :: name) ren = mark :: ren.getD name := by
  cases ren <;> simp [renamed]

theorem validSymbol_mark {mark : Char} {n : Str} (hm : mark = '$' ∨ mark = '%') (hn : n ≠ []) :
    validSymbol (mark :: n) = true := by
  cases n with
  | nil => exact (hn rfl).elim
  | cons d n => rcases hm with rfl | rfl <;> rfl

/-- A declared symbol that is in the context is available under its name, or the new name given to it,
with the same mark. -/
theorem C59_declared (src : Source P I) (σ : StateId) (mark : Char) (name : Str) (ren : Option Str)
    (sl : Option (Slot × Val P)) (c : Ctx) (v : Val P)
    (hv : Dict.get? src.context (mark :: name) = some v)
    (hm : mark = '$' ∨ mark = '%') (hn : ren.getD name ≠ []) (M : Machine P W) :
    ∃ item c' M', analyseImport src none (.cntx (mark :: name) ren sl) c = .ok (item, c') ∧
      translImport (X := X) σ item M = (.ok (), M') ∧ BoundTo c' σ M' (mark :: ren.getD name) v ∧
      (∀ n, n ≠ mark :: ren.getD name → c'.get n = c.get n) ∧
      ∀ s, s < c.next → (M'.states σ).values s = (M.states σ).values s := by
  refine ⟨.cntx (mark :: name) ren (some (c.next, v)),
    { c.push (mark :: ren.getD name) ⟨c.next, c.regular⟩ with next := c.next + 1 }, _, ?_, rfl,
    ⟨⟨c.next, c.regular⟩, ?_, ?_⟩, ?_, ?_⟩
  · simp only [analyseImport, hv, newSlot, renamed_eq, validSymbol_mark hm hn]
    rfl
  · simp [Ctx.get, Ctx.push, lookupBind_append, lookupBind]
  · simp [Machine.updState]
  · intro n hne
    simp [Ctx.get, Ctx.push, lookupBind_append, lookupBind, Ne.symm hne]
  · intro s hs
    have : s ≠ c.next := Nat.ne_of_lt hs
    simp [Machine.updState, this]

namespace Toy

def ctxSource : Source Obj Unit := { modules := fun _ => .error (), context := [(s!!"$x", num 1)] }
def ctxBlock (sym : Str) : Stmt Obj := .xblock [] none (.imports true none [.cntx sym none none])
def useX : Stmt Obj := .xblock [] none (.exprBlock (.varUse (s!!"x") none))

/-- A comment, a context block, a use: accepted. -/
example : (analyseDocument ctxSource 0 [] [.xblock [] none .comment, ctxBlock (s!!"$x"), useX]) matches .ok _ := rfl
/-- Two context blocks. -/
example : (analyseDocument ctxSource 0 [] [ctxBlock (s!!"$x"), ctxBlock (s!!"$x")]) matches .ok _ := rfl
/-- The context block after the use. -/
example : (analyseDocument ctxSource 0 [(s!!"$x", num 2)] [useX, ctxBlock (s!!"$x")]) matches
    .error .syntaxErr := rfl
/-- The context block inside of another block. -/
example : (analyseDocument ctxSource 0 [] [.xblock [] none (.struct [.null] (.body [ctxBlock (s!!"$x")]))])
    matches .error .syntaxErr := rfl
/-- Not declared, and not in the context. -/
example : (analyseDocument ctxSource 0 [] [useX]) matches .error (.undefinedVar _) := rfl
example : (analyseDocument ctxSource 0 [] [ctxBlock (s!!"$y")]) matches .error (.importErr ['$', 'y']) := rfl

end Toy

/-- A context block in the `else` clause of a `for` block is accepted. -/
theorem C59_not_in_general : ∃ (s : Stmt Toy.Obj) (doc : Document Toy.Obj), s.topLevel ∧
    ¬ s.contextFree ∧ (∀ m mo path items, s ≠ .xblock m mo (.imports true path items)) ∧
    analyseDocument Toy.ctxSource 0 [(s!!"$f", .py (.seq []))] [s] = .ok doc := by
  refine ⟨.xblock [] none (.forBlock (.var (s!!"x") false none none) (.varUse (s!!"f") none)
    [.pass, .elseClause (some (.body [Toy.ctxBlock (s!!"$x")]))]), _, trivial, ?_, ?_, rfl⟩
  · simp [Stmt.contextFree, Stmt.imps, Stmt.impsAll, Stmt.impsOpt, Toy.ctxBlock]
  · intro m mo path items h
    cases h

/-! ### C60 Wildcard import brings exactly the public symbols -/

/-- A mark and a name that does not start with an underscore. -/
def PublicSymbol (sym : Str) : Prop := ∃ mark ch rest, sym = mark :: ch :: rest ∧ ch ≠ '_'

/-- The value of a symbol as seen by the importing script: a hypertag remembers the state of its module. -/
inductive Seen (st : StateId) (sym : Str) : Val P → Val P → Prop
  | tag (h rest) : sym = '%' :: rest → Seen st sym (.hyper h) (.hyper (.imported h st))
  | other (v) : (∀ rest h, ¬ (sym = '%' :: rest ∧ v = .hyper h)) → Seen st sym v v

theorem importValue_seen (st : StateId) (sym : Str) (v : Val P) : Seen st sym v (importValue sym st v) := by
  cases v with
  | hyper h =>
    simp only [importValue]
    by_cases hs : sym.head? = some '%'
    · rw [if_pos hs]
      cases sym with
      | nil => cases hs
      | cons a rest =>
        simp only [List.head?_cons, Option.some.injEq] at hs
        exact .tag h rest (by rw [hs])
    · rw [if_neg hs]
      refine .other _ (fun rest h' => ?_)
      rintro ⟨rfl, -⟩
      exact hs rfl
  | _ =>
    refine .other _ (fun rest h' => ?_)
    rintro ⟨-, h⟩
    cases h

theorem valueSlots_eq (l : List (Str × Val P)) (c : Ctx) : Post (fun r =>
    r.2.binds = c.binds ++ r.1.map (fun x => (x.1, ⟨x.2.1, c.regular⟩)) ∧
    r.1.map (fun x => (x.1, x.2.2)) = l ∧ (∀ x ∈ r.1, c.next ≤ x.2.1) ∧
    (r.1.map (fun x => x.2.1)).Nodup ∧ r.2.regular = c.regular)
    (valueSlots l c : Except (AErr I) _) := by
  induction l generalizing c with
  | nil => exact .pure ⟨by simp, rfl, by simp, by simp, rfl⟩
  | cons a l ih =>
    obtain ⟨sym, v⟩ := a
    simp only [valueSlots]
    refine Post.bind (Q := fun r => r = (⟨c.next, c.regular⟩,
      { c.push sym ⟨c.next, c.regular⟩ with next := c.next + 1 })) ?_ ?_
    · unfold newSlot
      split
      · exact .ok rfl
      · exact .error
    · rintro _ rfl
      refine (ih _).bind ?_
      rintro ⟨l', c2⟩ ⟨k1, k2, k3, k4, k5⟩
      refine .pure ⟨?_, by simp [k2], ?_, ?_, k5⟩
      · have k1 : c2.binds = _ := k1
        simp [k1, Ctx.push]
      · intro x hx
        rcases List.mem_cons.1 hx with rfl | hx
        · exact Nat.le_refl _
        · exact Nat.le_of_succ_le (k3 x hx)
      · simp only [List.map_cons, List.nodup_cons]
        refine ⟨fun hm => ?_, k4⟩
        obtain ⟨x, hx, e⟩ := List.mem_map.1 hm
        have := k3 x hx
        rw [e] at this
        exact absurd this (Nat.not_succ_le_self _)

theorem setSlots_run (σ : StateId) (l : List (Slot × Val P)) (hl : (l.map (·.1)).Nodup)
    (M : Machine P W) : ∃ M', setSlots (X := X) σ l M = (.ok (), M') ∧
      (∀ x ∈ l, (M'.states σ).values x.1 = some x.2) ∧
      ∀ s, s ∉ l.map (·.1) → (M'.states σ).values s = (M.states σ).values s := by
  induction l generalizing M with
  | nil => exact ⟨M, rfl, by simp, fun _ _ => rfl⟩
  | cons a l ih =>
    obtain ⟨sl, v⟩ := a
    simp only [List.map_cons, List.nodup_cons] at hl
    obtain ⟨M', h1, h2, h3⟩ := ih hl.2 (M.updState σ (fun s =>
      { s with values := fun t => if t = sl then some v else s.values t }))
    refine ⟨M', h1, fun x hx => ?_, fun s hs => ?_⟩
    · rcases List.mem_cons.1 hx with rfl | hx
      · rw [h3 _ hl.1]; simp [Machine.updState]
      · exact h2 x hx
    · simp only [List.map_cons, List.mem_cons, not_or] at hs
      rw [h3 _ hs.2]
      simp [Machine.updState, hs.1]

theorem lookupBind_map {l : List (Str × Slot × Val P)} (hl : (l.map (·.1)).Nodup) (d : Nat) (sym : Str) :
    lookupBind (l.map (fun x => (x.1, ⟨x.2.1, d⟩))) sym =
      (Dict.get? l sym).map (fun y => (⟨y.1, d⟩ : SlotInfo)) := by
  induction l with
  | nil => rfl
  | cons a l ih =>
    obtain ⟨k, sl, v⟩ := a
    simp only [List.map_cons, List.nodup_cons] at hl
    simp only [List.map_cons, lookupBind, ih hl.2, Dict.get?]
    by_cases e : k = sym
    · subst e
      have : Dict.get? l k = .none := (Dict.get?_eq_none_iff _ _).2 hl.1
      simp [this]
    · simp only [e, if_false]
      cases Dict.get? l sym <;> rfl

theorem get?_mem {K V : Type} [DecidableEq K] {d : Dict K V} {k : K} {v : V} (h : Dict.get? d k = some v) :
    (k, v) ∈ d := by
  induction d with
  | nil => cases h
  | cons a d ih =>
    obtain ⟨k', v'⟩ := a
    simp only [Dict.get?] at h
    split at h
    · next e => cases h; rw [e]; simp
    · exact List.mem_cons_of_mem _ (ih h)

theorem get?_of_mem {K V : Type} [DecidableEq K] {d : Dict K V} {k : K} {v : V}
    (hd : (Dict.keys d).Nodup) (h : (k, v) ∈ d) : Dict.get? d k = some v := by
  induction d with
  | nil => cases h
  | cons a d ih =>
    obtain ⟨k', v'⟩ := a
    simp only [Dict.keys, List.map_cons, List.nodup_cons] at hd
    rcases List.mem_cons.1 h with e | h
    · cases e; simp [Dict.get?]
    · have : k' ≠ k := fun e => hd.1 (e ▸ List.mem_map.2 ⟨(k, v), h, rfl⟩)
      simp [Dict.get?, this, ih hd.2 h]

theorem isPublic_iff {sym : Str} (h : 2 ≤ sym.length) : isPublic sym = true ↔ PublicSymbol sym := by
  match sym, h with
  | a :: b :: rest, _ =>
    simp only [isPublic, PublicSymbol]
    constructor
    · intro h
      exact ⟨a, b, rest, rfl, by simpa using h⟩
    · rintro ⟨m, ch, r, e, hne⟩
      cases e
      simpa using hne

theorem valueSlots_next (l : List (Str × Val P)) (c : Ctx) : Post (fun r =>
    c.next ≤ r.2.next ∧ ∀ x ∈ r.1, x.2.1 < r.2.next) (valueSlots l c : Except (AErr I) _) := by
  induction l generalizing c with
  | nil => exact .pure ⟨Nat.le_refl _, by simp⟩
  | cons a l ih =>
    obtain ⟨sym, v⟩ := a
    simp only [valueSlots]
    refine Post.bind (Q := fun r => r = (⟨c.next, c.regular⟩,
      { c.push sym ⟨c.next, c.regular⟩ with next := c.next + 1 })) ?_ ?_
    · unfold newSlot
      split
      · exact .ok rfl
      · exact .error
    · rintro _ rfl
      refine (ih _).bind ?_
      rintro ⟨l', c2⟩ ⟨k1, k2⟩
      refine .pure ⟨Nat.le_of_succ_le k1, fun x hx => ?_⟩
      rcases List.mem_cons.1 hx with rfl | hx
      · exact k1
      · exact k2 x hx

theorem setSlots_mem (σ : StateId) (l : List (Slot × Val P)) (M : Machine P W) :
    (setSlots (X := X) σ l M).2.mem = M.mem := by
  induction l generalizing M with
  | nil => rfl
  | cons a l ih => exact ih _

/-- The effect of an item `*`. -/
theorem wild_effect (src : Source P I) (σ : StateId) (path : Option Str) (table : Dict Str (Val P))
    (st : StateId) (hm : src.modules path = .ok (table, st)) (hk : (Dict.keys table).Nodup)
    (old : Option (List (Slot × Val P))) (c c' : Ctx) (item : ImportItem P)
    (h : analyseImport src path (.wild old) c = .ok (item, c')) (M : Machine P W) :
    ∃ M', translImport (X := X) σ item M = (.ok (), M') ∧
      (∀ sym v, Dict.get? table sym = some v → PublicSymbol sym →
        ∃ w, Seen st sym v w ∧ ∃ info, c'.get sym = some info ∧ info.id < c'.next ∧
          (M'.states σ).values info.id = some w) ∧
      (∀ sym, (∀ v, Dict.get? table sym = some v → ¬ PublicSymbol sym) → c'.get sym = c.get sym) ∧
      (∀ s, s < c.next → (M'.states σ).values s = (M.states σ).values s) ∧ c.next ≤ c'.next ∧
      M'.mem = M.mem := by
  simp only [analyseImport] at h
  obtain ⟨⟨t, st'⟩, h1, h⟩ := ok_bind h
  have := (loadModule_judge src path).post _ h1
  rw [hm] at this
  cases this
  obtain ⟨pub, h2, h⟩ := ok_bind h
  obtain ⟨⟨l, c1⟩, h3, h⟩ := ok_bind h
  cases h
  have hpub := (publicSymbols_judge (I := I) st table).post _ h2
  obtain ⟨k1, k2, k3, k4, -⟩ := valueSlots_eq pub c _ h3
  obtain ⟨n1, n2⟩ := valueSlots_next pub c _ h3
  have hlen : ∀ sym v, (sym, v) ∈ table → 2 ≤ sym.length := by
    have key : ∀ (t : List (Str × Val P)) (pub : List (Str × Val P)),
        publicSymbols (I := I) st t = .ok pub → ∀ sym v, (sym, v) ∈ t → 2 ≤ sym.length := by
      intro t
      induction t with
      | nil => intro pub _ sym v hm; cases hm
      | cons a t ih =>
        obtain ⟨s, w⟩ := a
        intro pub hp sym v hm
        simp only [publicSymbols] at hp
        split at hp
        · cases hp
        · next hc =>
          obtain ⟨pub', hp', -⟩ := ok_bind hp
          rcases List.mem_cons.1 hm with e | hm
          · cases e
            obtain ⟨hlt, -⟩ := List.getElem?_eq_some_iff.1 hc
            omega
          · exact ih pub' hp' sym v hm
    exact key table pub h2
  -- the list of slots as a dict
  have hlk : (Dict.keys l).Nodup := by
    have e : Dict.keys l = (table.filter (fun x => isPublic x.1)).map (·.1) := by
      have : Dict.keys l = (l.map (fun x => (x.1, x.2.2))).map (·.1) := by
        simp [Dict.keys, List.map_map, Function.comp_def]
      rw [this, k2, hpub, List.map_map]
      rfl
    rw [e]
    exact (List.Sublist.map _ List.filter_sublist).nodup hk
  have hget : ∀ sym, c1.get sym = ((Dict.get? l sym).map (fun y => (⟨y.1, c.regular⟩ : SlotInfo))).or
      (c.get sym) := by
    intro sym
    have k1 : c1.binds = _ := k1
    rw [Ctx.get, k1, lookupBind_append, lookupBind_map hlk]
    rfl
  obtain ⟨M', t1, t2, t3⟩ := setSlots_run (X := X) σ (l.map Prod.snd) (by
    rw [List.map_map]; exact k4) M
  refine ⟨M', t1, fun sym v hv hp => ?_, fun sym hs => ?_, fun s hs => ?_, n1, ?_⟩
  · have hmem := get?_mem hv
    have hpm : (sym, importValue sym st v) ∈ pub := by
      rw [hpub]
      exact List.mem_map.2 ⟨(sym, v), List.mem_filter.2 ⟨hmem, (isPublic_iff (hlen _ _ hmem)).2 hp⟩, rfl⟩
    rw [← k2] at hpm
    obtain ⟨⟨sy, sl, w⟩, hx, e⟩ := List.mem_map.1 hpm
    simp only [Prod.mk.injEq] at e
    obtain ⟨rfl, e⟩ := e
    have hgl := get?_of_mem hlk hx
    refine ⟨_, importValue_seen st sy v, ⟨sl, c.regular⟩, ?_, n2 _ hx, ?_⟩
    · rw [hget, hgl]; rfl
    · rw [← e]
      exact t2 (sl, w) (List.mem_map.2 ⟨_, hx, rfl⟩)
  · rw [hget]
    cases hg : Dict.get? l sym with
    | none => rfl
    | some y =>
      exfalso
      obtain ⟨sl, w⟩ := y
      have hx := get?_mem hg
      have : (sym, w) ∈ pub := by
        rw [← k2]
        exact List.mem_map.2 ⟨_, hx, rfl⟩
      rw [hpub] at this
      obtain ⟨⟨sy, v⟩, hf, e⟩ := List.mem_map.1 this
      simp only [Prod.mk.injEq] at e
      obtain ⟨rfl, -⟩ := e
      obtain ⟨hf1, hf2⟩ := List.mem_filter.1 hf
      exact hs v (get?_of_mem hk hf1) ((isPublic_iff (hlen _ _ hf1)).1 hf2)
  · refine t3 s (fun hmem => ?_)
    obtain ⟨y, hy, e⟩ := List.mem_map.1 hmem
    obtain ⟨x, hx, rfl⟩ := List.mem_map.1 hy
    have := k3 x hx
    rw [e] at this
    exact absurd hs (Nat.not_lt.2 this)
  · have := setSlots_mem (X := X) σ (l.map Prod.snd) M
    rw [t1] at this
    exact this

/-- After `from m import *` exactly the public symbols of the module are bound to its values; all other
names mean what they meant before. -/
theorem C60_wild (src : Source P I) (σ : StateId) (path : Option Str) (table : Dict Str (Val P))
    (st : StateId) (hm : src.modules path = .ok (table, st)) (hk : (Dict.keys table).Nodup)
    (old : Option (List (Slot × Val P))) (c c' : Ctx) (item : ImportItem P)
    (h : analyseImport src path (.wild old) c = .ok (item, c')) (M : Machine P W) :
    ∃ M', translImport (X := X) σ item M = (.ok (), M') ∧
      (∀ sym v, Dict.get? table sym = some v → PublicSymbol sym →
        ∃ w, Seen st sym v w ∧ BoundTo c' σ M' sym w) ∧
      (∀ sym, (∀ v, Dict.get? table sym = some v → ¬ PublicSymbol sym) → c'.get sym = c.get sym) ∧
      (∀ s, s < c.next → (M'.states σ).values s = (M.states σ).values s) := by
  obtain ⟨M', h1, h2, h3, h4, -⟩ := wild_effect (X := X) src σ path table st hm hk old c c' item h M
  refine ⟨M', h1, fun sym v hv hp => ?_, h3, h4⟩
  obtain ⟨w, hw, info, g1, -, g2⟩ := h2 sym v hv hp
  exact ⟨w, hw, info, g1, g2⟩

/-- It succeeds whenever the module can be loaded and its symbols are marks with names. -/
theorem C60_accepted (src : Source P I) (path : Option Str) (table : Dict Str (Val P))
    (st : StateId) (hm : src.modules path = .ok (table, st)) (hv : ∀ sym ∈ Dict.keys table, validSymbol sym)
    (old : Option (List (Slot × Val P))) (c : Ctx) :
    ∃ item c', analyseImport src path (.wild old) c = .ok (item, c') := by
  have h1 : ∀ t : List (Str × Val P), (∀ sym ∈ Dict.keys t, validSymbol sym) →
      ∃ pub, publicSymbols (I := I) st t = .ok pub ∧ ∀ sym ∈ Dict.keys pub, validSymbol sym := by
    intro t ht
    induction t with
    | nil => exact ⟨[], rfl, by simp [Dict.keys]⟩
    | cons a t ih =>
      obtain ⟨s, w⟩ := a
      obtain ⟨pub, e, f⟩ := ih (fun sym hs => ht sym (by
        simp only [Dict.keys, List.map_cons]; exact List.mem_cons_of_mem _ hs))
      have hs := ht s (by simp [Dict.keys])
      match s, hs with
      | a :: b :: rest, hs =>
        simp only [publicSymbols, List.getElem?_cons_succ, List.getElem?_cons_zero, e]
        refine ⟨_, rfl, ?_⟩
        intro sym hsym
        split at hsym
        · simp only [Dict.keys, List.map_cons, List.mem_cons] at hsym
          rcases hsym with rfl | hsym
          · exact hs
          · exact f sym hsym
        · exact f sym hsym
  have h2 : ∀ (l : List (Str × Val P)) (c : Ctx), (∀ sym ∈ Dict.keys l, validSymbol sym) →
      ∃ r, (valueSlots l c : Except (AErr I) _) = .ok r := by
    intro l
    induction l with
    | nil => exact fun c _ => ⟨_, rfl⟩
    | cons a l ih =>
      obtain ⟨s, w⟩ := a
      intro c hl
      obtain ⟨r, hr⟩ := ih { c.push s ⟨c.next, c.regular⟩ with next := c.next + 1 } (fun sym hs => hl sym (by
        simp only [Dict.keys, List.map_cons]; exact List.mem_cons_of_mem _ hs))
      refine ⟨((s, c.next, w) :: r.1, r.2), ?_⟩
      have : (newSlot c s : Except (AErr I) _) = .ok (⟨c.next, c.regular⟩,
          { c.push s ⟨c.next, c.regular⟩ with next := c.next + 1 }) := by
        rw [newSlot, if_pos (hl s (by simp [Dict.keys]))]
      simp only [valueSlots, this]
      show (valueSlots l { c.push s ⟨c.next, c.regular⟩ with next := c.next + 1 } >>= _) = _
      rw [hr]
      rfl
  obtain ⟨pub, e, f⟩ := h1 table hv
  obtain ⟨r, hr⟩ := h2 pub c f
  refine ⟨.wild (some (r.1.map Prod.snd)), r.2, ?_⟩
  simp only [analyseImport, loadModule, hm]
  show (publicSymbols st table >>= _) = _
  rw [e]
  show (valueSlots pub c >>= _) = _
  rw [hr]
  rfl

namespace Toy

/-- `$a`, the private `$_b`, the hypertag `%T`. -/
def wildSource : Source Obj Unit :=
  { modules := fun _ => .ok ([(s!!"$a", num 1), (s!!"$_b", num 2), (s!!"%T", .hyper (.defn 3))], 9), context := [] }

example : (analyseImport wildSource none (.wild none) { next := 5 }).map (fun r =>
    (r.2.binds.map (fun b => (b.1, b.2.id)), r.1)) =
    .ok ([(s!!"$a", 5), (s!!"%T", 6)], .wild (some [(5, num 1), (6, .hyper (.imported (.defn 3) 9))])) := rfl

end Toy

/-! ### C75 Import of a single symbol -/

/-- C75. After `from m import x as y` (or without `as`), `y`, with the same mark, is bound to the module's
value; all other names mean what they meant before, and no other variable changes. -/
theorem C75_named (src : Source P I) (σ : StateId) (path : Str) (table : Dict Str (Val P))
    (st : StateId) (hmod : src.modules (some path) = .ok (table, st)) (mark : Char) (name : Str)
    (ren : Option Str) (sl : Option (Slot × Val P)) (c : Ctx) (v : Val P)
    (hv : Dict.get? table (mark :: name) = some v)
    (hm : mark = '$' ∨ mark = '%') (hn : ren.getD name ≠ []) (M : Machine P W) :
    ∃ item c' M' w, analyseImport src (some path) (.name (mark :: name) ren sl) c = .ok (item, c') ∧
      translImport (X := X) σ item M = (.ok (), M') ∧
      Seen st (mark :: name) v w ∧ BoundTo c' σ M' (mark :: ren.getD name) w ∧
      (∀ n, n ≠ mark :: ren.getD name → c'.get n = c.get n) ∧
      (∀ s, s < c.next → (M'.states σ).values s = (M.states σ).values s) ∧ M'.mem = M.mem := by
  refine ⟨.name (mark :: name) ren (some (c.next, importValue (mark :: name) st v)),
    { c.push (mark :: ren.getD name) ⟨c.next, c.regular⟩ with next := c.next + 1 }, _, _, ?_, rfl,
    importValue_seen st _ v, ⟨⟨c.next, c.regular⟩, ?_, ?_⟩, ?_, ?_, rfl⟩
  · simp only [analyseImport, loadModule, hmod]
    show (match Dict.get? table (mark :: name) with
      | none => _ | some v => _) = _
    rw [hv]
    simp only [newSlot, renamed_eq, validSymbol_mark hm hn]
    rfl
  · simp [Ctx.get, Ctx.push, lookupBind_append, lookupBind]
  · simp [Machine.updState]
  · intro n hne
    simp [Ctx.get, Ctx.push, lookupBind_append, lookupBind, Ne.symm hne]
  · intro s hs
    have : s ≠ c.next := Nat.ne_of_lt hs
    simp [Machine.updState, this]

/-- C75. A symbol that the module does not have is an `ImportError`. -/
theorem C75_missing (src : Source P I) (path : Str) (table : Dict Str (Val P))
    (st : StateId) (hmod : src.modules (some path) = .ok (table, st)) (sym : Str)
    (ren : Option Str) (sl : Option (Slot × Val P)) (c : Ctx) (hv : Dict.get? table sym = none) :
    analyseImport src (some path) (.name sym ren sl) c = .error (.importErr sym) := by
  simp only [analyseImport, loadModule, hmod]
  show (match Dict.get? table sym with
    | none => _ | some v => _) = _
  rw [hv]

/-- C75. An imported hypertag is expanded in the state of its module, wherever it is used; a second import
of it (the module `n` imports it from `m` and the script imports it from `n`) makes no difference. -/
theorem C75_module_state (E : Env P X W) (Γ : DefId → DefInfo P) (h : HVal) (st : StateId) (body : Val P)
    (attrs : List (Val P)) (kw : List (Str × Val P)) (σ : StateId) :
    expandHyper E Γ (.imported h st) body attrs kw σ = expandHyper E Γ h body attrs kw st ∧
    ∀ st', expandHyper E Γ (.imported (.imported h st) st') body attrs kw σ =
      expandHyper E Γ h body attrs kw st := by
  simp only [expandHyper, implies_true, and_self]

namespace Toy

example : (analyseImport wildSource (some (s!!"m")) (.name (s!!"%T") (some (s!!"U")) none) { next := 5 }).map
    (fun r => (r.2.binds.map (fun b => (b.1, b.2.id)), r.1)) =
    .ok ([(s!!"%U", 5)], .name (s!!"%T") (some (s!!"U")) (some (5, .hyper (.imported (.defn 3) 9)))) := rfl
example : (analyseImport wildSource (some (s!!"m")) (.name (s!!"$_b") none none) { next := 5 }).map
    (fun r => (r.2.binds.map (fun b => (b.1, b.2.id)), r.1)) =
    .ok ([(s!!"$_b", 5)], .name (s!!"$_b") none (some (5, num 2))) := rfl

end Toy

/-! ### C62 make_context marks unmarked names -/

/-- The value of `k` in a list of assignments: the last one counts. -/
def lastFor {V : Type} (k : Str) (l : List (Str × V)) : Option V :=
  (l.reverse.find? (fun p => p.1 = k)).map (·.2)

/-- The name under which a symbol is available: the mark is added if it has none. -/
def markedName (mark : Char) (name : Str) : Str :=
  if name.head? = some '%' ∨ name.head? = some '$' then name else mark :: name

theorem lastFor_append {V : Type} (k : Str) (l m : List (Str × V)) :
    lastFor k (l ++ m) = (lastFor k m).or (lastFor k l) := by
  simp only [lastFor, List.reverse_append, List.find?_append]
  cases m.reverse.find? (fun p => p.1 = k) <;> simp

theorem addMarked_eq {V : Type} (mark : Char) (l : List (Str × V)) (d : Dict Str V) :
    (∃ p ∈ l, p.1 = []) ∧ addMarked mark l d = none ∨
    (∀ p ∈ l, p.1 ≠ []) ∧ ∃ d', addMarked mark l d = some d' ∧
      ∀ k, Dict.get? d' k = (lastFor k (l.map (fun p => (markedName mark p.1, p.2)))).or (Dict.get? d k) := by
  induction l generalizing d with
  | nil => exact .inr ⟨by simp, d, rfl, fun k => rfl⟩
  | cons a l ih =>
    obtain ⟨n, v⟩ := a
    cases n with
    | nil => exact .inl ⟨⟨_, List.mem_cons_self, rfl⟩, rfl⟩
    | cons ch rest =>
      have hm : markName mark (ch :: rest) = some (markedName mark (ch :: rest)) := by
        simp [markName, markedName]
      simp only [addMarked, hm]
      rcases ih (Dict.set d (markedName mark (ch :: rest)) v) with ⟨⟨p, hp, e⟩, h⟩ | ⟨h1, d', h2, h3⟩
      · exact .inl ⟨⟨p, List.mem_cons_of_mem _ hp, e⟩, h⟩
      · refine .inr ⟨?_, d', h2, fun k => ?_⟩
        · intro p hp
          rcases List.mem_cons.1 hp with rfl | hp
          · simp
          · exact h1 p hp
        · rw [h3, List.map_cons, ← List.singleton_append (l := List.map _ l), lastFor_append, Dict.get?_set]
          by_cases e : markedName mark (ch :: rest) = k
          · cases lastFor k (l.map (fun p => (markedName mark p.1, p.2))) <;> simp [lastFor, e]
          · cases lastFor k (l.map (fun p => (markedName mark p.1, p.2))) <;> simp [lastFor, e]

/-- The context has a value for a symbol iff one of the tags or variables has that name, with the mark
added if it had none; variables take precedence over tags, later names over earlier ones. -/
theorem C62_context {V : Type} (tags vars : Dict Str V)
    (hn : ∀ p ∈ tags ++ vars, p.1 ≠ []) : ∃ d, makeContext tags vars = some d ∧
    ∀ k, Dict.get? d k = lastFor k (tags.map (fun p => (markedName '%' p.1, p.2)) ++
      vars.map (fun p => (markedName '$' p.1, p.2))) := by
  simp only [makeContext]
  rcases addMarked_eq '%' tags [] with ⟨⟨p, hp, e⟩, -⟩ | ⟨-, d1, h1, h2⟩
  · exact absurd e (hn p (List.mem_append_left _ hp))
  rcases addMarked_eq '$' vars d1 with ⟨⟨p, hp, e⟩, -⟩ | ⟨-, d2, h3, h4⟩
  · exact absurd e (hn p (List.mem_append_right _ hp))
  refine ⟨d2, ?_, fun k => ?_⟩
  · rw [h1]; exact h3
  · rw [h4, h2, lastFor_append]
    simp [Dict.get?]

/-- An empty name is an error. -/
theorem C62_empty {V : Type} (tags vars : Dict Str V) :
    makeContext tags vars = none ↔ ∃ p ∈ tags ++ vars, p.1 = [] := by
  constructor
  · intro h
    by_contra hne
    obtain ⟨d, h', -⟩ := C62_context tags vars (fun p hp e => hne ⟨p, hp, e⟩)
    rw [h] at h'
    cases h'
  · rintro ⟨p, hp, e⟩
    simp only [makeContext]
    rcases addMarked_eq '%' tags [] with ⟨-, h⟩ | ⟨h0, d1, h1, h2⟩
    · rw [h]; rfl
    rw [h1]
    rcases addMarked_eq '$' vars d1 with ⟨-, h⟩ | ⟨h3, d2, -, -⟩
    · exact h
    · rcases List.mem_append.1 hp with hp | hp
      · exact absurd e (h0 p hp)
      · exact absurd e (h3 p hp)

theorem lastFor_nodup {V : Type} (l : Dict Str V) (hl : (Dict.keys l).Nodup) (k : Str) :
    lastFor k l = Dict.get? l k := by
  induction l with
  | nil => rfl
  | cons a l ih =>
    obtain ⟨n, v⟩ := a
    simp only [Dict.keys, List.map_cons, List.nodup_cons] at hl
    rw [← List.singleton_append, lastFor_append, ih hl.2]
    simp only [List.singleton_append, Dict.get?]
    by_cases e : n = k
    · subst e
      have : Dict.get? l n = none := (Dict.get?_eq_none_iff _ _).2 hl.1
      simp [this, lastFor]
    · cases Dict.get? l k <;> simp [lastFor, e]

theorem get?_map_mark {V : Type} (mark : Char) (l : Dict Str V) (k : Str) :
    Dict.get? (l.map (fun p => (mark :: p.1, p.2))) k =
      match k with
      | [] => none
      | c :: rest => if c = mark then Dict.get? l rest else none := by
  induction l with
  | nil =>
    cases k with
    | nil => rfl
    | cons c rest => simp [Dict.get?]
  | cons a l ih =>
    obtain ⟨n, v⟩ := a
    simp only [List.map_cons, Dict.get?, ih]
    cases k with
    | nil => simp
    | cons c rest =>
      simp only [List.cons.injEq]
      by_cases h1 : c = mark
      · by_cases h2 : n = rest <;> simp [h1, h2]
      · simp [h1, Ne.symm h1]

/-- Names without marks: variables are available as `$name`, tags as `%name`, and nothing else is. -/
theorem C62_plain {V : Type} (tags vars : Dict Str V) (ht : (Dict.keys tags).Nodup)
    (hv : (Dict.keys vars).Nodup)
    (hn : ∀ n ∈ Dict.keys tags ++ Dict.keys vars, n ≠ [] ∧ n.head? ≠ some '%' ∧ n.head? ≠ some '$') :
    ∃ d, makeContext tags vars = some d ∧
      (∀ n, Dict.get? d ('$' :: n) = Dict.get? vars n) ∧
      (∀ n, Dict.get? d ('%' :: n) = Dict.get? tags n) ∧
      (∀ k, k.head? ≠ some '%' → k.head? ≠ some '$' → Dict.get? d k = none) := by
  obtain ⟨d, h1, h2⟩ := C62_context tags vars (by
    intro p hp
    rcases List.mem_append.1 hp with hp | hp
    · exact (hn p.1 (List.mem_append_left _ (List.mem_map_of_mem hp))).1
    · exact (hn p.1 (List.mem_append_right _ (List.mem_map_of_mem hp))).1)
  have e1 : tags.map (fun p => (markedName '%' p.1, p.2)) = tags.map (fun p => ('%' :: p.1, p.2)) := by
    refine List.map_congr_left (fun p hp => ?_)
    have := (hn p.1 (List.mem_append_left _ (List.mem_map_of_mem hp))).2
    simp [markedName, this]
  have e2 : vars.map (fun p => (markedName '$' p.1, p.2)) =
      vars.map (fun p => ('$' :: p.1, p.2)) := by
    refine List.map_congr_left (fun p hp => ?_)
    have := (hn p.1 (List.mem_append_right _ (List.mem_map_of_mem hp))).2
    simp [markedName, this]
  have nd : ∀ (c : Char) (l : Dict Str V), (Dict.keys l).Nodup →
      (Dict.keys (l.map (fun p => (c :: p.1, p.2)))).Nodup := by
    intro c l hl
    rw [Dict.keys, List.map_map, List.Nodup, List.pairwise_map]
    rw [Dict.keys, List.Nodup, List.pairwise_map] at hl
    exact hl.imp (fun h e => h (List.cons.inj e).2)
  have key : ∀ k, Dict.get? d k = (Dict.get? (vars.map (fun p => ('$' :: p.1, p.2))) k).or
      (Dict.get? (tags.map (fun p => ('%' :: p.1, p.2))) k) := by
    intro k
    rw [h2, e1, e2, lastFor_append, lastFor_nodup _ (nd _ _ hv), lastFor_nodup _ (nd _ _ ht)]
  refine ⟨d, h1, fun n => ?_, fun n => ?_, fun k hk1 hk2 => ?_⟩
  · rw [key, get?_map_mark, get?_map_mark]
    simp
  · rw [key, get?_map_mark, get?_map_mark]
    simp
  · rw [key, get?_map_mark, get?_map_mark]
    cases k with
    | nil => rfl
    | cons c rest =>
      simp only [List.head?_cons, ne_eq, Option.some.injEq] at hk1 hk2
      simp [hk1, hk2]

/-- `make_context({'T': 1, '$x': 2}, {'x': 3, 'y': 4})` -/
example : makeContext [(s!!"T", 1), (s!!"$x", 2)] [(s!!"x", 3), (s!!"y", 4)] =
    some [(s!!"%T", 1), (s!!"$x", 3), (s!!"$y", 4)] := rfl

end
end Verif
