import Verif.Props.UnusedImport
import Verif.Props.Truth
import Verif.Lemmas.DefIds

/-! C127: blocks that are never executed. -/

set_option linter.unusedSectionVars false

namespace Verif
open Py Spec

section
variable {P X W I : Type}

/-! ### C127 A block whose conditions are always false makes no difference -/

theorem Spec.FalseConstant.constant {e : Expr} (h : FalseConstant e) : Constant e := by
  cases h
  · exact .none
  · exact .bool _
  · exact .text _
  · exact .raw _

/-- A test of a false constant. -/
theorem Spec.FalseConstant.test {e : Expr} (h : FalseConstant e) (E : Env P X W) (σ : StateId) :
    (eval E σ e >>= fun v => truthOf E v : Comp P X W Bool) = Pure.pure Bool.false := by
  cases h with
  | none => simp only [eval, Comp.pure_bind, truthOf]
  | false => simp only [eval, Comp.pure_bind, truthOf]
  | raw => simp [eval, Comp.pure_bind, truthOf]
  | text parts hp =>
    have : parts.flatten = [] := List.flatten_eq_nil_iff.2 hp
    simp [eval, eval_statics, Comp.pure_bind, truthOf, this]

theorem translIf_never (E : Env P X W) (σ : StateId) : ∀ cs : List (Expr × Option (Stmt P)), (∀ c ∈ cs, FalseConstant c.1) →
    translIf E σ cs none = (Pure.pure [] : Comp P X W (List Ref))
  | [], _ => by simp only [translIf, optBranch]
  | c :: cs, h => by
    have := (h c List.mem_cons_self).test E σ
    simp only [translIf]
    rw [← Comp.bind_assoc, this, Comp.pure_bind, if_neg (by simp), translIf_never E σ cs (fun x hx => h x (List.mem_cons_of_mem _ hx))]

theorem analyseClauses_tests (src : Source P I) : ∀ (cs : List (Expr × Option (Stmt P))) {cs' : List (Expr × Option (Stmt P))} {c c' : Ctx},
    analyseClauses src cs c = .ok (cs', c') → (∀ x ∈ cs, FalseConstant x.1) → ∀ x ∈ cs', FalseConstant x.1
  | [], cs', c, c', h, _ => by
    simp only [analyseClauses] at h
    cases h
    simp
  | (t, b) :: cs, cs', c, c', h, hf => by
    simp only [analyseClauses, analyseClause] at h
    have ht := hf (t, b) List.mem_cons_self
    rw [ht.constant.analysed] at h
    obtain ⟨⟨x, c1⟩, e1, h⟩ := Except.bind_eq_ok.1 h
    obtain ⟨⟨y, c2⟩, e2, h⟩ := Except.bind_eq_ok.1 h
    obtain ⟨t', et, e1⟩ := Except.bind_eq_ok.1 e1
    cases et
    obtain ⟨⟨b', c3⟩, e3, e1⟩ := Except.bind_eq_ok.1 e1
    cases e1
    cases h
    intro z hz
    rcases List.mem_cons.1 hz with rfl | hz
    · exact ht
    · exact analyseClauses_tests src cs e2 (fun x hx => hf x (List.mem_cons_of_mem _ hx)) z hz

theorem never_passes (src : Source P I) {cs : List (Expr × Option (Stmt P))} (hf : ∀ c ∈ cs, FalseConstant c.1) (hd : (Stmt.ifBlock cs none).defs = []) :
    (Stmt.ifBlock cs none).Passes 0 src False := by
  intro c s' c' h _
  have hids := analyse_ids (src := src) _ _ _ h
  rw [hd] at hids
  refine ⟨List.map_eq_nil_iff.1 hids, fun h => h.elim, ?_⟩
  simp only [analyse] at h
  obtain ⟨⟨cs', c1⟩, e1, h⟩ := Except.bind_eq_ok.1 h
  simp only [analyseElse] at h
  cases h
  have hf' := analyseClauses_tests src cs e1 hf
  intro X W f E E' _ hE _ σ m mo
  have e : (do let r ← transl E' σ (.xblock m mo (.ifBlock cs' none)); return nodesOf r : Comp P X W (List Ref)) = translStatic m := by
    simp only [transl, translOpt, translIf_never E' σ cs' hf', Comp.bind_assoc, Comp.pure_bind, withIndent, setIndent]
    have hc : ∀ {α : Type} (k : Comp P X W α), (curIndent σ >>= fun _ => k) = k := fun k => by funext M; rfl
    simp only [forRefs, Comp.pure_bind, finishBlock, hc, nodesOf, Comp.bind_pure]
  rw [e]
  exact translStatic_sim hE m

theorem while_passes (src : Source P I) {t : Expr} {b : Option (Stmt P)} (hf : FalseConstant t) (hd : (Stmt.whileBlock t b none).defs = []) :
    (Stmt.whileBlock t b none).Passes 1 src False := by
  intro c s' c' h _
  have hids := analyse_ids (src := src) _ _ _ h
  rw [hd] at hids
  refine ⟨List.map_eq_nil_iff.1 hids, fun h => h.elim, ?_⟩
  simp only [analyse] at h
  rw [hf.constant.analysed] at h
  obtain ⟨t', et, h⟩ := Except.bind_eq_ok.1 h
  cases et
  obtain ⟨⟨b', c1⟩, e1, h⟩ := Except.bind_eq_ok.1 h
  simp only [analyseElse] at h
  cases h
  intro X W f E E' hL hE _ σ m mo
  obtain ⟨k, hk⟩ := Nat.exists_eq_add_of_le' hL
  have e : (do let r ← transl E' σ (.xblock m mo (.whileBlock t b' none)); return nodesOf r : Comp P X W (List Ref)) = translStatic m := by
    have ht : (eval E' σ t >>= truthOf E' : Comp P X W Bool) = Pure.pure false := hf.test E' σ
    simp only [transl, translOpt, hk, whileLoop, ht, Comp.bind_assoc, Comp.pure_bind, if_neg Bool.false_ne_true, loopResult, withIndent, setIndent]
    have hc : ∀ {α : Type} (k : Comp P X W α), (curIndent σ >>= fun _ => k) = k := fun k => by funext M; rfl
    simp only [forRefs, Comp.pure_bind, finishBlock, hc, nodesOf, Comp.bind_pure]
  rw [e]
  exact translStatic_sim hE m

section
variable {src : Source P I} {g : Dict Str (Val P)} {ss1 ss2 : List (Stmt P)} {mk : Marks} {U : Uni}

/-- A block `if` with any number of clauses, between other blocks of a script, where all conditions are constants that are false, and there is no `else`.
There are no definitions in it, and none of the symbols that are assigned in it is mentioned below; `q` tells the other symbols. Without the block --
only the blank lines above it stay -- the same faults are found; when there is none, the same nodes are made, with the same contents, or the same
exception is raised, whatever python does, and the same other symbols are exported with the same values. -/
theorem C127_document (hg : ∀ x ∈ g, validSymbol x.1 = true) {m : Str} {mo : Option Modifier} {cs : List (Expr × Option (Stmt P))}
    (hf : ∀ c ∈ cs, FalseConstant c.1) (hd : (Stmt.ifBlock cs none).defs = []) {q : Str → Bool}
    (hm : Stmt.MadeDocument mk U (ss1 ++ .xblock m mo (.ifBlock cs none) :: ss2)) (hq : ∀ y ∈ (Stmt.ifBlock cs none).defines src, q y = false)
    (hu : Stmt.onlyNamesAll src (fun y => q y = true) ss2) (hx : Stmt.noContextAll ss2) (first : Slot) {doc0 : Document P}
    (h0 : analyseDocument src first g (ss1 ++ [.xblock m mo (.ifBlock cs none)]) = .ok doc0) :
    (∀ e, analyseDocument src first g (ss1 ++ .xblock m mo (.ifBlock cs none) :: ss2) = .error e ↔
      analyseDocument src first g (ss1 ++ blankLines m ++ ss2) = .error e) ∧
    ∀ doc, analyseDocument src first g (ss1 ++ .xblock m mo (.ifBlock cs none) :: ss2) = .ok doc →
      ∃ doc', analyseDocument src first g (ss1 ++ blankLines m ++ ss2) = .ok doc' ∧
        ∀ (ops : PyOps P X W) (Γ : DefId → DefInfo P), Enrolled Γ doc → (∀ i, i ∉ (Stmt.defsAll doc.children).map Prod.fst → (Γ i).below first) →
          ∃ Γ' : DefId → DefInfo P, Enrolled Γ' doc' ∧ (∀ i, i ∉ (Stmt.defsAll doc.children).map Prod.fst → Γ' i = Γ i) ∧
            ∀ (k : Nat) (σ : StateId) (M : Machine P W), M.FreshFrom first →
              keepSymbols q (translDocument (envAt ops Γ' k) σ doc' M).1 = keepSymbols q (translDocument (envAt ops Γ k) σ doc M).1 ∧
              (translDocument (envAt ops Γ' k) σ doc' M).2.mem = (translDocument (envAt ops Γ k) σ doc M).2.mem := by
  have h := passed_document (X := X) (W := W) hg (never_passes src hf hd) hm hq hu (.inr hx) first h0
  simpa only [Nat.zero_le, true_implies] using h

/-- The same for a loop `while` without `else`, whose condition is such a constant; the bound for loops is not 0. -/
theorem C127_while (hg : ∀ x ∈ g, validSymbol x.1 = true) {m : Str} {mo : Option Modifier} {t : Expr} {b : Option (Stmt P)}
    (hf : FalseConstant t) (hd : (Stmt.whileBlock t b none).defs = []) {q : Str → Bool}
    (hm : Stmt.MadeDocument mk U (ss1 ++ .xblock m mo (.whileBlock t b none) :: ss2)) (hq : ∀ y ∈ (Stmt.whileBlock t b none).defines src, q y = false)
    (hu : Stmt.onlyNamesAll src (fun y => q y = true) ss2) (hx : Stmt.noContextAll ss2) (first : Slot) {doc0 : Document P}
    (h0 : analyseDocument src first g (ss1 ++ [.xblock m mo (.whileBlock t b none)]) = .ok doc0) :
    (∀ e, analyseDocument src first g (ss1 ++ .xblock m mo (.whileBlock t b none) :: ss2) = .error e ↔
      analyseDocument src first g (ss1 ++ blankLines m ++ ss2) = .error e) ∧
    ∀ doc, analyseDocument src first g (ss1 ++ .xblock m mo (.whileBlock t b none) :: ss2) = .ok doc →
      ∃ doc', analyseDocument src first g (ss1 ++ blankLines m ++ ss2) = .ok doc' ∧
        ∀ (ops : PyOps P X W) (Γ : DefId → DefInfo P), Enrolled Γ doc → (∀ i, i ∉ (Stmt.defsAll doc.children).map Prod.fst → (Γ i).below first) →
          ∃ Γ' : DefId → DefInfo P, Enrolled Γ' doc' ∧ (∀ i, i ∉ (Stmt.defsAll doc.children).map Prod.fst → Γ' i = Γ i) ∧
            ∀ (k : Nat) (σ : StateId) (M : Machine P W), 1 ≤ k → M.FreshFrom first →
              keepSymbols q (translDocument (envAt ops Γ' k) σ doc' M).1 = keepSymbols q (translDocument (envAt ops Γ k) σ doc M).1 ∧
              (translDocument (envAt ops Γ' k) σ doc' M).2.mem = (translDocument (envAt ops Γ k) σ doc M).2.mem :=
  passed_document hg (while_passes src hf hd) hm hq hu (.inr hx) first h0

end
end

/-! #### Examples -/

namespace DeadCodeEx
open MentionsEx IndependentEx

-- blocks that are never executed, above and between other blocks
example : (text (s!!"if False:\n    $q = 1 / 0\n    p | a\nelif '':\n    | b\n\n| a\nif None | $x\n%H t\n    p | {t}-{x}\n$v = x\n| $v\nH 'b'")).isSome = true ∧
    text (s!!"if False:\n    $q = 1 / 0\n    p | a\nelif '':\n    | b\n\n| a\nif None | $x\n%H t\n    p | {t}-{x}\n$v = x\n| $v\nH 'b'") =
      text (s!!"\n| a\n%H t\n    p | {t}-{x}\n$v = x\n| $v\nH 'b'") := by decide +kernel

-- loops
example : (text (s!!"while False:\n    $q = 1 / 0\n    p | a\n\n| a\nwhile '' | $x\n| $x")).isSome = true ∧
    text (s!!"while False:\n    $q = 1 / 0\n    p | a\n\n| a\nwhile '' | $x\n| $x") = text (s!!"\n| a\n| $x") := by decide +kernel

-- ... and those that are
example : text (s!!"if True:\n    | b\n| a") = some (s!!"b\na") ∧ text (s!!"| a") = some (s!!"a") := by decide +kernel

-- a variable of such a block is known below, although it has no value
example : text (s!!"if False:\n    $q = 1\ntry | $q\nelse | -") = some (s!!"-") ∧ text (s!!"try | $q\nelse | -") = none := by decide +kernel

-- an unknown name is a fault, wherever it is
example : text (s!!"if False:\n    | $q\n| a") = none := by decide +kernel

/-- `if False: $q = x`. -/
def never : List (Expr × Option (Stmt Toy.Obj)) :=
  [(.boolean false, some (.body [.indent ' ', .xblock [] none (.assign (.many [.var (s!!"q") false none none]) none (.varUse (s!!"x") none)), .dedent ' ']))]

/-- The other symbols. -/
def others (y : Str) : Bool := y != s!!"$q"

theorem made_all : Stmt.MadeDocument defaultMarks asciiUni (before ++ .xblock (s!!"\n") none (.ifBlock never none) :: parsed) := by
  have hx : Ident (s!!"x") := ⟨'x', [], rfl, by decide +kernel, by simp⟩
  have hy : Ident (s!!"y") := ⟨'y', [], rfl, by decide +kernel, by simp⟩
  have hz : Ident (s!!"z") := ⟨'z', [], rfl, by decide +kernel, by simp⟩
  have hq : Ident (s!!"q") := ⟨'q', [], rfl, by decide +kernel, by simp⟩
  let body : List (Stmt Toy.Obj) := [.indent ' ', .xblock [] none (.assign (.many [.var (s!!"q") false none none]) none (.varUse (s!!"x") none)), .dedent ' ']
  have hb : ∃ head tail, body = head ++ tail ∧ head.length ≤ 1 ∧ (∀ s ∈ head, ∃ l, s = Stmt.line l) ∧ Stmt.Blocks tail :=
    ⟨[], body, rfl, by simp, by simp, .sub (as := [_]) (.inl rfl) (.one (by rfl) .nil) .nil⟩
  refine ⟨⟨before ++ .xblock (s!!"\n") none (.ifBlock never none) :: parsed, [], (List.append_nil _).symm, WellNested.one (by rfl)
    (WellNested.one (by rfl) (WellNested.one (by rfl) (WellNested.one (by rfl) .nil))), by simp, by simp⟩, ?_⟩
  simp [before, never, parsed, Stmt.MadeAll, Stmt.Made, Stmt.MadeClauses, Stmt.MadeClause, Stmt.MadeOpt, Stmt.isBody, Stmt.role, Newlines, Target.Made, Target.MadeAll, Expr.Made, hx, hy, hz, hq]
  exact hb

-- the theorem applies: without the block there is no fault, and slots are numbered otherwise
example : ∃ doc', analyseDocument source 0 builtins (before ++ blankLines (s!!"\n") ++ parsed) = .ok doc' ∧ doc'.slotsOut = [(s!!"$z", 3), (s!!"$y", 4)] := by
  obtain ⟨_, h⟩ := C127_document (X := Str) (W := Unit) (src := source) (g := builtins) (q := others) (cs := never) (by decide +kernel)
    (by intro c hc; simp only [never, List.mem_singleton] at hc; subst hc; exact .false) (by rfl) made_all (by decide +kernel)
    (by simp only [parsed, Stmt.onlyNamesAll, Stmt.onlyNames, Target.onlyNames, Target.onlyNamesAll, Expr.uses]; decide +kernel)
    (by simp [parsed, Stmt.noContextAll, Stmt.noContext]) 0 (doc0 := ⟨fills 0 builtins, _, [(s!!"$z", 3), (s!!"$q", 4)]⟩) rfl
  obtain ⟨doc', a, _⟩ := h _ rfl
  exact ⟨doc', a, by cases a; rfl⟩

example : (analyseDocument source 0 builtins (before ++ .xblock (s!!"\n") none (.ifBlock never none) :: parsed)).toOption.map Document.slotsOut =
    some [(s!!"$z", 3), (s!!"$q", 4), (s!!"$y", 5)] := by decide +kernel

/-- The body of `while False: $q = x`. -/
def idle : Option (Stmt Toy.Obj) :=
  some (.body [.indent ' ', .xblock [] none (.assign (.many [.var (s!!"q") false none none]) none (.varUse (s!!"x") none)), .dedent ' '])

theorem made_loop : Stmt.MadeDocument defaultMarks asciiUni (before ++ .xblock (s!!"\n") none (.whileBlock (.boolean false) idle none) :: parsed) := by
  have hx : Ident (s!!"x") := ⟨'x', [], rfl, by decide +kernel, by simp⟩
  have hy : Ident (s!!"y") := ⟨'y', [], rfl, by decide +kernel, by simp⟩
  have hz : Ident (s!!"z") := ⟨'z', [], rfl, by decide +kernel, by simp⟩
  have hq : Ident (s!!"q") := ⟨'q', [], rfl, by decide +kernel, by simp⟩
  let body : List (Stmt Toy.Obj) := [.indent ' ', .xblock [] none (.assign (.many [.var (s!!"q") false none none]) none (.varUse (s!!"x") none)), .dedent ' ']
  have hb : ∃ head tail, body = head ++ tail ∧ head.length ≤ 1 ∧ (∀ s ∈ head, ∃ l, s = Stmt.line l) ∧ Stmt.Blocks tail :=
    ⟨[], body, rfl, by simp, by simp, .sub (as := [_]) (.inl rfl) (.one (by rfl) .nil) .nil⟩
  refine ⟨⟨before ++ .xblock (s!!"\n") none (.whileBlock (.boolean false) idle none) :: parsed, [], (List.append_nil _).symm, WellNested.one (by rfl)
    (WellNested.one (by rfl) (WellNested.one (by rfl) (WellNested.one (by rfl) .nil))), by simp, by simp⟩, ?_⟩
  simp [before, idle, parsed, Stmt.MadeAll, Stmt.Made, Stmt.MadeOpt, Stmt.isBody, Stmt.role, Newlines, Target.Made, Target.MadeAll, Expr.Made, hx, hy, hz, hq]
  exact hb

-- the same for a loop
example : ∃ doc', analyseDocument source 0 builtins (before ++ blankLines (s!!"\n") ++ parsed) = .ok doc' ∧ doc'.slotsOut = [(s!!"$z", 3), (s!!"$y", 4)] := by
  obtain ⟨_, h⟩ := C127_while (X := Str) (W := Unit) (src := source) (g := builtins) (q := others) (b := idle) (by decide +kernel)
    .false (by rfl) made_loop (by decide +kernel)
    (by simp only [parsed, Stmt.onlyNamesAll, Stmt.onlyNames, Target.onlyNames, Target.onlyNamesAll, Expr.uses]; decide +kernel)
    (by simp [parsed, Stmt.noContextAll, Stmt.noContext]) 0 (doc0 := ⟨fills 0 builtins, _, [(s!!"$z", 3), (s!!"$q", 4)]⟩) rfl
  obtain ⟨doc', a, _⟩ := h _ rfl
  exact ⟨doc', a, by cases a; rfl⟩

end DeadCodeEx
end Verif
