import Verif.Lemmas.Rename
import Verif.Lemmas.RenameTransl
import Verif.Props.Safety
import Verif.Props.Visible

/-! C102: names of variables and tags. -/

namespace Verif
open Py Spec

section
variable {P X W I : Type}

/-! ### C102 A script means the same when its variables and tags get other names -/

/-- Analysis of the script with new names, given the builtins by their new names: the same slots in the same places, or the same fault,
which is reported by the new name. -/
theorem C102_analysis {f : Renaming} (hf : f.Good) (src : Source P I) (first : Slot) (globals : Dict Str (Val P)) (children : List (Stmt P))
    (w : Stmt.renamableAll src f children) :
    analyseDocument src first (renameDict f globals) (Stmt.renameAll f children) =
      match analyseDocument src first globals children with
      | .ok doc => .ok (doc.rename f)
      | .error e => .error (e.rename f) := by
  have := analyseDocument_rename hf src first globals children w
  unfold Maps at this
  rw [this]
  cases analyseDocument src first globals children <;> rfl

mutual
/-- The definitions of the script with new names. -/
theorem Stmt.defs_rename (f : Renaming) : ∀ s : Stmt P, (s.rename f).defs = s.defs.map (fun d => (d.1, d.2.rename f))
  | .static _ | .indent _ | .dedent _ | .line _ | .text _ _ | .comment | .embed _ | .imports _ _ _ | .exprBlock _ | .assign _ _ _ | .pass => by
    simp only [Stmt.rename, Stmt.defs, List.map_nil]
  | .xblock _ _ b => by simp only [Stmt.rename, Stmt.defs]; exact Stmt.defs_rename f b
  | .struct _ b => by simp only [Stmt.rename, Stmt.defs]; exact Stmt.defs_rename f b
  | .defn id _ _ ba as b => by simp only [Stmt.rename, Stmt.defs, List.map_cons, Stmt.defs_rename f b]; rfl
  | .tryBlock bs => by simp only [Stmt.rename, Stmt.defs]; exact Stmt.defsAll_rename f bs
  | .ifBlock cs els => by
    simp only [Stmt.rename, Stmt.defs, List.map_append, Stmt.defsClauses_rename f cs, Stmt.defsOpt_rename f els]
  | .elseClause b => by simp only [Stmt.rename, Stmt.defs]; exact Stmt.defsOpt_rename f b
  | .whileBlock _ b els => by
    simp only [Stmt.rename, Stmt.defs, List.map_append, Stmt.defsOpt_rename f b, Stmt.defsOpt_rename f els]
  | .forBlock _ _ rest => by simp only [Stmt.rename, Stmt.defs]; exact Stmt.defsAll_rename f rest
  | .body ss => by simp only [Stmt.rename, Stmt.defs]; exact Stmt.defsAll_rename f ss
theorem Stmt.defsAll_rename (f : Renaming) : ∀ ss : List (Stmt P),
    Stmt.defsAll (Stmt.renameAll f ss) = (Stmt.defsAll ss).map (fun d => (d.1, d.2.rename f))
  | [] => by simp only [Stmt.renameAll, Stmt.defsAll, List.map_nil]
  | s :: ss => by simp only [Stmt.renameAll, Stmt.defsAll, List.map_append, Stmt.defs_rename f s, Stmt.defsAll_rename f ss]
theorem Stmt.defsOpt_rename (f : Renaming) : ∀ o : Option (Stmt P),
    Stmt.defsOpt (Stmt.renameOpt f o) = (Stmt.defsOpt o).map (fun d => (d.1, d.2.rename f))
  | .none => by simp only [Stmt.renameOpt, Stmt.defsOpt, List.map_nil]
  | some s => by simp only [Stmt.renameOpt, Stmt.defsOpt, Stmt.defs_rename f s]
theorem Stmt.defsClauses_rename (f : Renaming) : ∀ cs : List (Expr × Option (Stmt P)),
    Stmt.defsClauses (Stmt.renameClauses f cs) = (Stmt.defsClauses cs).map (fun d => (d.1, d.2.rename f))
  | [] => by simp only [Stmt.renameClauses, Stmt.defsClauses, List.map_nil]
  | (t, b) :: cs => by
    simp only [Stmt.renameClauses, Stmt.renameClause, Stmt.defsClauses, Stmt.defsClause, List.map_append, Stmt.defsOpt_rename f b,
      Stmt.defsClauses_rename f cs]
end

/-- The definitions of a script, and those of the script with new names. -/
theorem C102_definitions (f : Renaming) (children : List (Stmt P)) (Γ other : DefId → DefInfo P)
    (hΓ : ∀ id, Γ id = ((Stmt.defsAll children).lookup id).getD (other id)) (id : DefId) :
    ((Stmt.defsAll (Stmt.renameAll f children)).lookup id).getD (other id) = Γ id ∨
    ((Stmt.defsAll (Stmt.renameAll f children)).lookup id).getD (other id) = (Γ id).rename f := by
  rw [Stmt.defsAll_rename, hΓ]
  have : ∀ l : List (DefId × DefInfo P), (l.map (fun d => (d.1, d.2.rename f))).lookup id = (l.lookup id).map (DefInfo.rename f) := by
    intro l
    induction l with
    | nil => rfl
    | cons a l ih =>
      obtain ⟨k, d⟩ := a
      simp only [List.map_cons, List.lookup]
      cases id == k <;> simp [ih]
  rw [this]
  cases (Stmt.defsAll children).lookup id with
  | none => exact .inl rfl
  | some d => exact .inr rfl

/-- The script with new names is translated to the same nodes, with the same effects, or it fails with the same exception. The symbols that
it exports have the new names and the same values. `Γ'` are the definitions of hypertags, in the script with new names. -/
theorem C102_document {f : Renaming} (hf : f.Good) (src : Source P I) (first : Slot) (globals : Dict Str (Val P)) (children : List (Stmt P))
    (w : Stmt.renamableAll src f children) {doc doc' : Document P} (h : analyseDocument src first globals children = .ok doc)
    (h' : analyseDocument src first (renameDict f globals) (Stmt.renameAll f children) = .ok doc')
    (ops : PyOps P X W) (Γ Γ' : DefId → DefInfo P) (hΓ : ∀ id, Γ' id = Γ id ∨ Γ' id = (Γ id).rename f) (n : Nat) (σ : StateId) :
    translDocument (envAt ops Γ' n) σ doc' = do
      let (root, symbols) ← translDocument (envAt ops Γ n) σ doc
      return (root, renameDict f symbols) := by
  rw [C102_analysis hf src first globals children w, h] at h'
  cases h'
  rw [envAt_rename f ops Γ Γ' hΓ n]
  exact translDocument_rename f _ σ doc

end

/-! ### Examples -/

namespace RenameEx

/-- `x` and `y` are exchanged, and the tag `p` becomes `q`; `q` becomes `p`. -/
def exchange (a b n : Str) : Str := if n = a then b else if n = b then a else n

theorem exchange_inj (a b : Str) : Function.Injective (exchange a b) := by
  have inv : ∀ n, exchange a b (exchange a b n) = n := by
    intro n
    unfold exchange
    by_cases h1 : n = a
    · rw [if_pos h1]
      by_cases h2 : b = a
      · rw [if_pos h2, h1, h2]
      · rw [if_neg h2, if_pos rfl, h1]
    · rw [if_neg h1]
      by_cases h2 : n = b
      · rw [if_pos h2, if_pos rfl, h2]
      · rw [if_neg h2, if_neg h1, if_neg h2]
  intro m n h
  rw [← inv m, h, inv]

def swap : Renaming := ⟨exchange (s!!"x") (s!!"y"), exchange (s!!"p") (s!!"q")⟩

theorem swap_good : swap.Good where
  var := exchange_inj _ _
  tag := exchange_inj _ _
  varNil n := by
    show exchange _ _ n = [] ↔ n = []
    unfold exchange
    split
    · next h => subst h; simp
    · split
      · next h => subst h; simp
      · exact Iff.rfl
  tagNil n := by
    show exchange _ _ n = [] ↔ n = []
    unfold exchange
    split
    · next h => subst h; simp
    · split
      · next h => subst h; simp
      · exact Iff.rfl

def builtins : Dict Str (Val Toy.Obj) := [(s!!"%p", .py (.tag 0)), (s!!"$x", .str (s!!"a<b")), (s!!"$s", .py (.seq [.num 1, .num 2]))]

/-- A script, and the same script with other names. -/
def script : Str := s!!"%q t\n    p | {t}-{x}\nfor y in s:\n    $x = y\n    q x\n"
def script' : Str := s!!"%p t\n    q | {t}-{y}\nfor x in s:\n    $y = x\n    p y\n"

example : exText (renameDict swap builtins) script' = exText builtins script ∧ (exText builtins script).isSome = true := by decide +kernel

/-- Exported symbols have the new names. -/
example : VisibleEx.exports builtins (s!!"$y = x\n") =
    some [[s!!"$y"], [s!!"$y"], [s!!"$y"], [s!!"a<b"]] ∧
    VisibleEx.exports (renameDict swap builtins) (s!!"$x = y\n") = some [[s!!"$x"], [s!!"$x"], [s!!"$x"], [s!!"a<b"]] := by decide +kernel

def source : Source Toy.Obj Unit := ⟨fun _ => .ok ([(s!!"$z", .str [])], 7), []⟩

/-- `$y = x`, `import $z`, `import *`, then `$y`. -/
def parsed : List (Stmt Toy.Obj) :=
  [.xblock [] none (.assign (.many [.var (s!!"y") false none none]) none (.varUse (s!!"x") none)),
    .xblock [] none (.imports false (some (s!!"m")) [.name (s!!"$z") none none, .wild none]),
    .xblock (s!!"\n") none (.exprBlock (.varUse (s!!"y") none))]

theorem renamable : Stmt.renamableAll source swap parsed := by
  simp only [parsed, Stmt.renamableAll, Stmt.renamable]
  refine ⟨trivial, ?_, trivial, trivial⟩
  intro sl _ y hy
  have hw : wildNames source (some (s!!"m")) = [s!!"$z"] := by decide +kernel
  rw [hw] at hy
  simp only [List.mem_singleton] at hy
  subst hy
  decide +kernel

/-- The slots are the same; `$x` is exported instead of `$y`. -/
example : ∃ doc doc', analyseDocument source 0 builtins parsed = .ok doc ∧ doc.slotsOut = [(s!!"$y", 3), (s!!"$z", 5)] ∧
    analyseDocument source 0 (renameDict swap builtins) (Stmt.renameAll swap parsed) = .ok doc' ∧ doc'.slotsIn = doc.slotsIn ∧
    doc'.slotsOut = [(s!!"$x", 3), (s!!"$z", 5)] := by
  have h := C102_analysis swap_good source 0 builtins parsed renamable
  obtain ⟨doc, h1⟩ : ∃ doc, analyseDocument source 0 builtins parsed = .ok doc := ⟨_, rfl⟩
  have h2 : doc.slotsOut = [(s!!"$y", 3), (s!!"$z", 5)] := by
    have : (analyseDocument source 0 builtins parsed).toOption.map Document.slotsOut = some [(s!!"$y", 3), (s!!"$z", 5)] := by rfl
    rw [h1] at this
    exact Option.some.inj this
  rw [h1] at h
  refine ⟨doc, _, h1, h2, h, rfl, ?_⟩
  simp only [Document.rename]
  rw [h2]
  decide +kernel

/-- Different names must stay different: `y` may not become `x`. -/
example : exText builtins (s!!"$y = 'c'\n| $x\n") ≠ exText builtins (s!!"$x = 'c'\n| $x\n") := by decide +kernel

/-- Attributes are used by name, so that they have to keep it. -/
example : (exText builtins (s!!"%H t\n    | $t\nH t='a'\n")).isSome = true ∧ exText builtins (s!!"%H u\n    | $u\nH t='a'\n") = none := by
  decide +kernel

end RenameEx
end Verif
