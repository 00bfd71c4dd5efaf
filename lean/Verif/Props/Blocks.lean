import Verif.Lemmas.Keeps
import Verif.Spec.Toy

/-! Properties of blocks: C54. -/

namespace Verif
open Py

section
variable {P X W : Type}

/-! ### C54 Indentation is restored after every block -/

/-- The indentation of the state `σ` is the same. -/
def SameIndent (σ : StateId) (M M' : Machine P W) : Prop :=
  (M'.states σ).indentation = (M.states σ).indentation

/-- The indentation of all other states is the same. -/
def SameIndentElsewhere (σ : StateId) (M M' : Machine P W) : Prop :=
  ∀ τ, τ ≠ σ → (M'.states τ).indentation = (M.states τ).indentation

/-- The indentation of all states is the same. -/
def SameIndents (M M' : Machine P W) : Prop := ∀ τ, SameIndent τ M M'

/-- Hypertags and callbacks of the environment restore the indentation. -/
structure EnvRestores (E : Env P X W) : Prop where
  expand : ∀ h b as kw σ, Keeps SameIndents (E.expand h b as kw σ)
  call : ∀ c, Keeps SameIndents (E.call c)

theorem EnvRestores.own {E : Env P X W} (h : EnvRestores E) (σ : StateId) :
    TransFrame E (fun _ c => Keeps (SameIndent σ) c) σ (fun _ => True) (fun _ _ => True) False where
  toClosed := RelFrame.closed
    { refl := fun _ => rfl
      trans := fun h1 h2 => h2.trans h1
      mem := fun _ _ => rfl
      call := fun c M => h.call c M σ }
  expand := fun hv b as kw M => h.expand hv b as kw σ M σ
  slot := by intro sl v _ M; simp [SameIndent, setSlot, Machine.updState]
  missing := fun _ => trivial
  ind := fun h => h.elim
  keep := by intro α c _ M; simp [SameIndent, keepIndent, restoring, Machine.updState]

theorem EnvRestores.elsewhere {E : Env P X W} (h : EnvRestores E) (σ : StateId) :
    TransFrame E (fun _ c => Keeps (SameIndentElsewhere σ) c) σ (fun _ => True) (fun _ _ => True) True where
  toClosed := RelFrame.closed
    { refl := fun _ _ _ => rfl
      trans := fun h1 h2 τ hτ => (h2 τ hτ).trans (h1 τ hτ)
      mem := fun _ _ _ _ => rfl
      call := fun c M τ _ => h.call c M τ }
  expand := fun hv b as kw M τ _ => h.expand hv b as kw σ M τ
  slot := by intro sl v _ M τ hτ; simp [setSlot, Machine.updState, hτ]
  missing := fun _ => trivial
  ind := by intro _ s M τ hτ; simp [putIndent, Machine.updState, hτ]
  keep := by
    intro α c hc M τ hτ
    have := hc trivial M τ hτ
    simpa [keepIndent, restoring, Machine.updState, hτ] using this

theorem sameIndents_of {α} {c : Comp P X W α} (σ : StateId) (h1 : Keeps (SameIndent σ) c)
    (h2 : Keeps (SameIndentElsewhere σ) c) : Keeps SameIndents c := by
  intro M τ
  by_cases h : τ = σ
  · subst h; exact h1 M
  · exact h2 M τ h

theorem sameIndents_closed {E : Env P X W} (h : EnvRestores E) :
    Closed E (fun _ c => Keeps SameIndents c) (fun _ _ => True) := RelFrame.closed
  { refl := fun _ _ => rfl
    trans := fun h1 h2 τ => (h2 τ).trans (h1 τ)
    mem := fun _ _ _ => rfl
    call := h.call }

theorem expandHyper_restores {E : Env P X W} (h : EnvRestores E) (Γ : DefId → DefInfo P)
    (hΓ : ∀ id, (Γ id).body.isBlock) (hv : HVal) (b : Val P) (as : List (Val P))
    (kw : List (Str × Val P)) (σ : StateId) : Keeps SameIndents (expandHyper E Γ hv b as kw σ) := by
  induction hv generalizing σ with
  | imported hv st ih => exact ih st
  | defn id =>
    have hr := DefInfo.reads_of (q := fun _ => True) (fun _ => trivial) (Γ id)
    have hw := DefInfo.writes_of (q := fun _ => True) (fun _ => trivial) (Γ id)
    exact sameIndents_of σ ((h.own σ).expandDef id _ hr hw (fun _ => hΓ id) b as kw)
      ((h.elsewhere σ).expandDef id _ hr hw (fun hn => (hn trivial).elim) b as kw)

theorem callEmbedded_restores {E : Env P X W} (h : EnvRestores E) (c : Callback P) :
    Keeps SameIndents (callEmbedded E c) := by
  have F := sameIndents_closed h
  refine F.bind ?_ (fun body => F.bind (h.expand _ _ _ _ _) (fun dom => F.bind (F.setIndent _ _)
    (fun _ => F.bind (F.py (by constructor)) (fun _ => F.pure _))))
  cases c.body <;> first
    | exact F.pure _
    | exact F.bind (F.strOf _) (fun _ => F.bind (F.newText _ _) (fun _ => F.pure _))

theorem envAt_restores (ops : PyOps P X W) (Γ : DefId → DefInfo P)
    (hΓ : ∀ id, (Γ id).body.isBlock) (n : Nat) : EnvRestores (envAt ops Γ n) := by
  induction n with
  | zero => exact ⟨fun _ _ _ _ _ _ _ => rfl, fun _ _ _ => rfl⟩
  | succ n ih =>
    exact ⟨fun hv b as kw σ => expandHyper_restores ih Γ hΓ hv b as kw σ,
      fun c => callEmbedded_restores ih c⟩

/-- Translation of any block, with any hypertags and any user code, leaves the indentation of every
state as it was, whatever the outcome: a result, an exception at any point, or running out of steps. -/
theorem C54_block (ops : PyOps P X W) (Γ : DefId → DefInfo P)
    (hΓ : ∀ id, (Γ id).body.isBlock) (n : Nat) (σ : StateId) (s : Stmt P)
    (hs : s.isBlock) (M : Machine P W) (τ : StateId) :
    ((transl (envAt ops Γ n) σ s M).2.states τ).indentation = (M.states τ).indentation := by
  have h := envAt_restores (X := X) ops Γ hΓ n
  have hr := Stmt.reads_of (q := fun _ => True) (fun _ => trivial) s
  have hw := Stmt.writes_of (q := fun _ => True) (fun _ => trivial) s
  exact sameIndents_of σ ((h.own σ).transl s hr hw (fun _ => hs))
    ((h.elsewhere σ).transl s hr hw (fun hn => (hn trivial).elim)) M τ

/-- The same for the expansion of a hypertag, native or imported, and for its use as a function. -/
theorem C54_hypertag (ops : PyOps P X W) (Γ : DefId → DefInfo P)
    (hΓ : ∀ id, (Γ id).body.isBlock) (n : Nat) (σ τ : StateId) (h : HVal) (b : Val P)
    (as : List (Val P)) (kw : List (Str × Val P)) (c : Callback P) (M : Machine P W) :
    (((envAt ops Γ n).expand h b as kw σ M).2.states τ).indentation = (M.states τ).indentation ∧
    (((envAt ops Γ n).call c M).2.states τ).indentation = (M.states τ).indentation :=
  ⟨(envAt_restores (X := X) ops Γ hΓ n).expand h b as kw σ M τ,
    (envAt_restores (X := X) ops Γ hΓ n).call c M τ⟩

/-- Blocks abandoned by an exception: the next branch of a `try` block starts with the indentation with
which the block was entered. -/
theorem C54_next_branch (ops : PyOps P X W) (Γ : DefId → DefInfo P)
    (hΓ : ∀ id, (Γ id).body.isBlock) (n : Nat) (σ : StateId) (bs : List (Stmt P))
    (hs : ∀ b ∈ bs, b.isBlock) (M M' : Machine P W)
    (hf : AllFail (bs.map (transl (envAt ops Γ n) σ)) M M') (τ : StateId) :
    (M'.states τ).indentation = (M.states τ).indentation := by
  induction bs generalizing M with
  | nil => cases hf; rfl
  | cons b bs ih =>
    simp only [List.map_cons] at hf
    cases hf with
    | cons hr _ hf =>
      have h := C54_block ops Γ hΓ n σ b (hs b (by simp)) M τ
      rw [ih (fun c hc => hs c (by simp [hc])) _ hf, ← h, hr]

/-- A block of two levels whose inner line fails: the indentation was "newline + 4 characters" when the
exception occurred, and is "newline" afterwards. -/
example : let s : Stmt Toy.Obj := .tryBlock [.body [.indent ' ', .indent ' ', .xblock [] none (.body
      [.indent '\t', .indent ' ', .line (.markup [Toy.v 5]), .dedent ' ', .dedent '\t']),
      .dedent ' ', .dedent ' ']];
    s.isBlock ∧ ((transl (envAt Toy.ops (fun _ => ⟨none, [], .pass⟩) 9) 0 s (Toy.machine [])).2.states 0).indentation
      = ['\n'] := by
  refine ⟨by simp [Stmt.isBlock, Stmt.allBlocks], rfl⟩

/-- `indent` and `dedent` nodes alone do change it. -/
example : ((transl (envAt Toy.ops (fun _ => ⟨none, [], .pass⟩) 9) 0 (.indent ' ') (Toy.machine [])).2.states 0).indentation
      = ['\n', ' '] := rfl

end
end Verif
