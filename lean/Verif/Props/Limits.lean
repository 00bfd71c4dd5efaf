import Verif.Lemmas.Lasts
import Verif.Spec.Toy

/-
C115: a script has one outcome. The model bounds the depth of nested expansions and the number of iterations of
every loop (`envAt`); the bounds decide whether an outcome is found, but not which one.
-/

namespace Verif
open Py

section
variable {P X W : Type} (ops : PyOps P X W) (Γ : DefId → DefInfo P)

/-- The outcome `r` is found within some bound. -/
def Spec.Outcome {α : Type} (c : Nat → Comp P X W α) (M : Machine P W) (r : Res X α × Machine P W) : Prop :=
  ∃ n, c n M = r ∧ r.1 ≠ .timeout

/-- A script that ends within some bounds, with nodes and symbols or with an exception, ends in the same way and with
the same memory within all larger bounds. -/
theorem C115_larger (σ : StateId) (doc : Document P) (M : Machine P W) {n m : Nat} (h : n ≤ m)
    (hn : (translDocument (envAt ops Γ n) σ doc M).1 ≠ .timeout) :
    translDocument (envAt ops Γ m) σ doc M = translDocument (envAt ops Γ n) σ doc M :=
  translDocument_lasts (envAt_lasts ops Γ n m h) σ doc M hn

theorem Spec.Outcome.unique_of_lasts {α : Type} {c : Nat → Comp P X W α} (hc : ∀ n m, n ≤ m → Lasts (c n) (c m))
    {M : Machine P W} {r r' : Res X α × Machine P W} (h : Spec.Outcome c M r) (h' : Spec.Outcome c M r') : r = r' := by
  obtain ⟨n, rfl, hn⟩ := h
  obtain ⟨m, rfl, hm⟩ := h'
  cases Nat.le_total n m with
  | inl h => exact (hc n m h M hn).symm
  | inr h => exact hc m n h M hm

/-- A script has at most one outcome. -/
theorem C115_one (σ : StateId) (doc : Document P) (M : Machine P W) {r r'}
    (h : Spec.Outcome (fun n => translDocument (envAt ops Γ n) σ doc) M r)
    (h' : Spec.Outcome (fun n => translDocument (envAt ops Γ n) σ doc) M r') : r = r' :=
  h.unique_of_lasts (fun n m hnm => translDocument_lasts (envAt_lasts ops Γ n m hnm) σ doc) h'

/-- A bound that is too small is noticed: no exception handler of the script, no qualifier and no Python code that calls
hypertags takes it for something else. -/
theorem C115_noticed (σ : StateId) (doc : Document P) (M : Machine P W) {r} (n : Nat)
    (h : Spec.Outcome (fun n => translDocument (envAt ops Γ n) σ doc) M r) :
    (translDocument (envAt ops Γ n) σ doc M).1 = .timeout ∨ translDocument (envAt ops Γ n) σ doc M = r := by
  by_cases hn : (translDocument (envAt ops Γ n) σ doc M).1 = .timeout
  · exact .inl hn
  · exact .inr (C115_one ops Γ σ doc M ⟨n, rfl, hn⟩ h)

/-- The same for blocks, expressions, expansions of hypertags, calls of hypertags from Python code, and for Python
code that calls hypertags. -/
theorem C115_parts (σ : StateId) (M : Machine P W) :
    (∀ (s : Stmt P) r r', Spec.Outcome (fun n => transl (envAt ops Γ n) σ s) M r →
      Spec.Outcome (fun n => transl (envAt ops Γ n) σ s) M r' → r = r') ∧
    (∀ (e : Expr) r r', Spec.Outcome (fun n => eval (envAt ops Γ n) σ e) M r →
      Spec.Outcome (fun n => eval (envAt ops Γ n) σ e) M r' → r = r') ∧
    (∀ (h : HVal) (b : Val P) (vs : List (Val P)) (kw : List (Str × Val P)) r r',
      Spec.Outcome (fun n => (envAt ops Γ n).expand h b vs kw σ) M r →
      Spec.Outcome (fun n => (envAt ops Γ n).expand h b vs kw σ) M r' → r = r') ∧
    (∀ (c : Callback P) r r', Spec.Outcome (fun n => (envAt ops Γ n).call c) M r →
      Spec.Outcome (fun n => (envAt ops Γ n).call c) M r' → r = r') ∧
    (∀ (α : Type) (c : PyM P X W α) r r', Spec.Outcome (fun n => runPy (envAt ops Γ n) c) M r →
      Spec.Outcome (fun n => runPy (envAt ops Γ n) c) M r' → r = r') :=
  ⟨fun s _ _ h h' => h.unique_of_lasts (fun n m hnm => transl_lasts (envAt_lasts ops Γ n m hnm) σ s) h',
   fun e _ _ h h' => h.unique_of_lasts (fun n m hnm => eval_lasts (envAt_lasts ops Γ n m hnm) σ e) h',
   fun g b vs kw _ _ h h' => h.unique_of_lasts (fun n m hnm => (envAt_lasts ops Γ n m hnm).expand g b vs kw σ) h',
   fun c _ _ h h' => h.unique_of_lasts (fun n m hnm => (envAt_lasts ops Γ n m hnm).call c) h',
   fun _ c _ _ h h' => h.unique_of_lasts (fun n m hnm => (envAt_lasts ops Γ n m hnm).runPy c) h'⟩

/-- `while True` has no outcome. -/
theorem C115_endless (σ : StateId) (M : Machine P W) (r) :
    ¬ Spec.Outcome (fun n => transl (envAt ops Γ n) σ (.whileBlock (.boolean true) .none .none)) M r := by
  rintro ⟨n, rfl, h⟩
  refine h ?_
  have hl : ∀ (E : Env P X W) k out e, whileLoop (eval E σ (.boolean true) >>= truthOf E) (optBranch .none) k out e M = (.timeout, M) := by
    intro E k
    induction k with
    | zero => exact fun _ _ => rfl
    | succ k ih => exact fun out e => ih (out ++ []) false
  simp only [transl, translOpt]
  rw [Comp.bind_run, hl]
  rfl

end

namespace LimitsEx
open Toy

/-- `% H` with the body `H: pass`; the slot of the tag is 0. -/
def recursive : DefId → DefInfo Obj := fun _ =>
  { bodyAttr := none, attrs := [], body := .struct [.tag (s!!"H") (some 0) [] []] .pass }

def inside : M := machine [.hyper (.defn 0)]

theorem recursive_step (E : Env Obj Nat World) (h : E.expand (.defn 0) (.dom []) [] [] 0 inside = (.timeout, inside)) :
    expandHyper E recursive (.defn 0) (.dom []) [] [] 0 inside = (.timeout, inside) := by
  have h1 : translTag E 0 (.tag (s!!"H") (some 0) [] []) [] inside = E.expand (.defn 0) (.dom []) [] [] 0 inside := rfl
  have h2 : transl E 0 (recursive 0).body inside = (.timeout, inside) := by
    simp only [recursive, transl, nodesOf, List.reverse_singleton, applyTags]
    rw [Comp.pure_bind, Comp.bind_assoc, Comp.bind_run, h1, h]
    rfl
  have h3 : appendAttrs E 0 (recursive 0) (.dom []) [] [] inside = (.ok [], inside) := rfl
  simp only [expandHyper, expandDef]
  rw [Comp.bind_ok h3, Comp.bind_run, h2]
  rfl

/-- A hypertag that uses itself has no outcome. -/
example (r) : ¬ Spec.Outcome (fun n => (envAt ops recursive n).expand (.defn 0) (.dom []) [] [] 0) inside r := by
  rintro ⟨n, rfl, h⟩
  refine h ?_
  have hl : ∀ n, (envAt ops recursive n).expand (.defn 0) (.dom []) [] [] 0 inside = (.timeout, inside) := by
    intro n
    induction n with
    | zero => rfl
    | succ n ih =>
      simp only [envAt]
      exact recursive_step _ ih
  exact congrArg Prod.fst (hl n)

/-- A `try` block with a loop of three iterations and the alternative `| other`. -/
def doc : Document Obj :=
  { slotsIn := []
    children := [.tryBlock [.forBlock (.many [.var (s!!"x") false none (some 1)]) (v 0) [.line (.markup [v 1])],
      .line (.verbat (s!!"other"))]]
    slotsOut := [(s!!"x", 1)] }

def start : M := machine [.py (.seq [.num 7, .num 8, .num 9])]

/-- The root node and the exported numbers; `none` if there is no outcome. -/
def exported : Res Nat (Ref × Dict Str V) → Option (Option (Ref × List (Str × Nat)))
  | .ok (r, d) => some (some (r, d.map (fun p => (p.1, match p.2 with | .py (.num n) => n | _ => 0))))
  | .raise _ => some none
  | .timeout => none

/-- Three items are too many for the bound 3, as also the end of the items is asked for. The `try` block does not take
this for an exception. -/
example : exported (translDocument (envAt ops recursive 3) 0 doc start).1 = none := by decide +kernel

theorem doc_four : exported (translDocument (envAt ops recursive 4) 0 doc start).1 = some (some (3, [(s!!"x", 9)])) := by
  decide +kernel

/-- With the bound 4 there is an outcome, so this is the outcome for all larger ones. -/
example (m : Nat) (h : 4 ≤ m) : exported (translDocument (envAt ops recursive m) 0 doc start).1 = some (some (3, [(s!!"x", 9)])) := by
  have h4 : (translDocument (envAt ops recursive 4) 0 doc start).1 ≠ .timeout := by
    intro e
    have := doc_four
    rw [e] at this
    cases this
  rw [C115_larger ops recursive 0 doc start h h4]
  exact doc_four

end LimitsEx
end Verif
