import Verif.Lemmas.Comp
import Verif.Lemmas.Eval
import Verif.Lemmas.Unpack
import Verif.Spec.Control

namespace Verif
open Py

section
variable {P X W : Type} (E : Env P X W)

theorem translClauseOk (c : Comp P X W (List Ref)) :
    optBranch (some c) = c := rfl

/-- The nodes a statement contributes. -/
def nodesBy (σ : StateId) (s : Stmt P) : Comp P X W (List Ref) := do
  let a ← transl E σ s
  return nodesOf a

theorem translOpt_some (σ : StateId) (s : Stmt P) : translOpt E σ (some s) = some (nodesBy E σ s) := by
  simp only [translOpt]; rfl

theorem translOpt_none (σ : StateId) : translOpt E σ (none : Option (Stmt P)) = none := by
  simp only [translOpt]

theorem translEach_eq (σ : StateId) (ss : List (Stmt P)) : translEach E σ ss = ss.map (nodesBy E σ) := by
  induction ss with
  | nil => simp only [translEach, List.map_nil]
  | cons s ss ih => simp only [translEach, List.map_cons, ih]; rfl

theorem withIndent_placed (σ : StateId) (s : Stmt P) :
    (nodesBy E σ s >>= withIndent σ) = placed σ (transl E σ s) := by
  simp only [nodesBy, Comp.bind_assoc]; rfl

theorem setIndent_nil (ind : Str) : (setIndent ind [] : Comp P X W Unit) = pure () := rfl

theorem withIndent_nil (σ : StateId) (M : Machine P W) :
    (withIndent σ [] : Comp P X W _) M = (.ok (some []), M) := rfl

/-! ### if -/

theorem translIf_skip (σ : StateId) (pre post : List (Expr × Option (Stmt P)))
    (els : Option (Comp P X W (List Ref))) (M M1 : Machine P W)
    (h : AllTested (truthOf E) false (pre.map (fun c => eval E σ c.1)) M M1) :
    translIf E σ (pre ++ post) els M = translIf E σ post els M1 := by
  induction pre generalizing M with
  | nil => cases h; rfl
  | cons c pre ih =>
    cases h with
    | cons h1 h2 h3 =>
      simp only [List.cons_append, translIf]
      rw [Comp.bind_ok h1, Comp.bind_ok h2]
      exact ih _ h3

/-! ### Loops -/

theorem forLoop_run (next : Comp P X W (Option (Val P))) (bind : Val P → Comp P X W Unit)
    (body : Comp P X W (List Ref)) (k : Nat) (out : List Ref) (empty : Bool) (M M' : Machine P W) (r) :
    forLoop next (fun v => do
        bind v
        body) k out empty M = (.ok r, M') ↔
      ∃ run, ForRun next bind body M run M' ∧ run.length < k ∧
        r = (out ++ (run.map Prod.snd).flatten, run.isEmpty && empty) := by
  induction k generalizing out empty M with
  | zero =>
    constructor
    · intro h; cases h
    · rintro ⟨run, _, hl, _⟩; omega
  | succ k ih =>
    simp only [forLoop]
    rw [Comp.bind_eq_ok]
    constructor
    · rintro ⟨o, M1, h1, h2⟩
      cases o with
      | none =>
        cases h2
        exact ⟨[], .stop h1, by simp, by simp⟩
      | some v =>
        simp only [Comp.bind_assoc] at h2
        rw [Comp.bind_eq_ok] at h2
        obtain ⟨u, M2, h2, h3⟩ := h2
        rw [Comp.bind_eq_ok] at h3
        obtain ⟨ns, M3, h3, h4⟩ := h3
        rw [ih] at h4
        obtain ⟨run, g1, g2, g3⟩ := h4
        refine ⟨(v, ns) :: run, .step h1 h2 h3 g1, by simp; omega, ?_⟩
        rw [g3]; simp
    · rintro ⟨run, g1, g2, g3⟩
      cases g1 with
      | stop h1 => exact ⟨none, M', h1, by rw [g3]; simp; rfl⟩
      | step h1 h2 h3 h4 =>
        refine ⟨some _, _, h1, ?_⟩
        simp only [Comp.bind_assoc]
        rw [Comp.bind_ok h2, Comp.bind_ok h3, ih]
        refine ⟨_, h4, by simp at g2; omega, ?_⟩
        rw [g3]; simp

theorem whileLoop_run (test : Comp P X W Bool) (body : Comp P X W (List Ref)) (k : Nat)
    (out : List Ref) (empty : Bool) (M M' : Machine P W) (r) :
    whileLoop test body k out empty M = (.ok r, M') ↔
      ∃ run, WhileRun test body M run M' ∧ run.length < k ∧
        r = (out ++ run.flatten, run.isEmpty && empty) := by
  induction k generalizing out empty M with
  | zero =>
    constructor
    · intro h; cases h
    · rintro ⟨run, _, hl, _⟩; omega
  | succ k ih =>
    simp only [whileLoop]
    rw [Comp.bind_eq_ok]
    constructor
    · rintro ⟨b, M1, h1, h2⟩
      cases b with
      | false =>
        cases h2
        exact ⟨[], .stop h1, by simp, by simp⟩
      | true =>
        simp only [if_true] at h2
        rw [Comp.bind_eq_ok] at h2
        obtain ⟨ns, M3, h3, h4⟩ := h2
        rw [ih] at h4
        obtain ⟨run, g1, g2, g3⟩ := h4
        refine ⟨ns :: run, .step h1 h3 g1, by simp; omega, ?_⟩
        rw [g3]; simp
    · rintro ⟨run, g1, g2, g3⟩
      cases g1 with
      | stop h1 => exact ⟨false, M', h1, by rw [g3]; simp; rfl⟩
      | step h1 h3 h4 =>
        refine ⟨true, _, h1, ?_⟩
        simp only [if_true]
        rw [Comp.bind_ok h3, ih]
        refine ⟨_, h4, by simp at g2; omega, ?_⟩
        rw [g3]; simp

/-! ### try -/

theorem tryLoop_skip (pre post : List (Comp P X W (List Ref))) (M M1 : Machine P W)
    (h : AllFail pre M M1) : tryLoop (pre ++ post) M = tryLoop post M1 := by
  induction h with
  | nil M => rfl
  | cons h1 h2 _ ih =>
    unfold Raises at h1
    simp only [List.cons_append, tryLoop, Comp.tryExcept, h1, Comp.handle, h2, if_true]
    exact ih

/-- What a try loop can raise. -/
theorem tryLoop_raise (cs : List (Comp P X W (List Ref))) (M M' : Machine P W) (e : Exn X)
    (h : tryLoop cs M = (.raise e, M')) : e.ordinary = false := by
  induction cs generalizing M with
  | nil => cases h
  | cons c cs ih =>
    simp only [tryLoop, Comp.tryExcept] at h
    rcases hc : c M with ⟨r, M1⟩
    rw [hc] at h
    cases r with
    | ok a => cases h
    | timeout => cases h
    | raise e2 =>
      simp only [Comp.handle] at h
      by_cases ho : e2.ordinary = true
      · rw [if_pos ho] at h
        exact ih M1 h
      · rw [if_neg ho] at h
        cases h
        simpa using ho

/-! ### Layout -/

theorem forRefs_raise (f : Ref → Comp P X W Unit) (Q : Exn X → Prop)
    (hf : ∀ r M M' e, f r M = (.raise e, M') → Q e) (rs : List Ref) (M M' : Machine P W) (e : Exn X)
    (h : forRefs f rs M = (.raise e, M')) : Q e := by
  induction rs generalizing M with
  | nil => cases h
  | cons r rs ih =>
    simp only [forRefs] at h
    rw [Comp.bind_eq_raise] at h
    rcases h with h | ⟨_, M1, _, h⟩
    · exact hf _ _ _ _ h
    · exact ih M1 h

theorem relativeIndent_raise (k : Nat) (parent : Str) (r : Ref) (M M' : Machine P W) (e : Exn X)
    (h : relativeIndent k parent r M = (.raise e, M')) : e = .assertion := by
  induction k generalizing r M M' e with
  | zero => cases h
  | succ k ih =>
    simp only [relativeIndent] at h
    rw [Comp.bind_eq_raise] at h
    rcases h with h | ⟨n, M1, hn, h⟩
    · cases h
    · cases hi : n.indent with
      | none =>
        simp only [hi] at h
        exact forRefs_raise _ (· = .assertion) (fun r M M' e h => ih r M M' e h) _ _ _ _ h
      | some ind =>
        simp only [hi] at h
        split at h
        · split at h
          · cases h
          · cases h; rfl
        · cases h

theorem relativeChildren_raise (ind : Option Str) (body : List Ref) (M M' : Machine P W) (e : Exn X)
    (h : relativeChildren ind body M = (.raise e, M')) : e = .assertion := by
  cases ind with
  | none => cases h
  | some i =>
    simp only [relativeChildren] at h
    rw [Comp.bind_eq_raise] at h
    rcases h with h | ⟨n, M1, hn, h⟩
    · cases h
    · exact forRefs_raise _ (· = .assertion) (fun r M M' e h => relativeIndent_raise _ _ r M M' e h)
        _ _ _ _ h

theorem setIndent_raise (ind : Str) (ns : List Ref) (M M' : Machine P W) (e : Exn X)
    (h : setIndent ind ns M = (.raise e, M')) : e = .assertion := by
  refine forRefs_raise _ (· = .assertion) ?_ _ _ _ _ h
  intro r M M' e h
  simp only [setIndentNode] at h
  rw [Comp.bind_eq_raise] at h
  rcases h with h | ⟨n, M1, hn, h⟩
  · cases h
  · rw [Comp.bind_eq_raise] at h
    rcases h with h | ⟨_, M2, _, h⟩
    · cases h
    · cases hc : n.cls with
      | text s => simp only [hc] at h; cases h
      | node => simp only [hc] at h; exact relativeChildren_raise _ _ _ _ _ h
      | root => simp only [hc] at h; exact relativeChildren_raise _ _ _ _ _ h

end
end Verif
