import Verif.Spec.Scope
import Verif.Lemmas.TransFrame

/-! Scripts with all slots in place do not raise `unresolved`. -/

namespace Verif
open Py

section
variable {P X W : Type}

/-- The computation does not raise the exception for names that were not analysed. -/
def NoUnres (α : Type) (c : Comp P X W α) : Prop := ∀ M, (c M).1 ≠ .raise .unresolved

/-- The code outside of the model is honest. -/
def PyOps.honest (ops : PyOps P X W) : Prop :=
  ∀ (α : Type) (c : PyM P X W α), PyOp ops c → ∀ m, (c m).honest

structure EnvNoUnres (E : Env P X W) : Prop where
  ops : E.ops.honest
  expand : ∀ h b as kw σ, NoUnres _ (E.expand h b as kw σ)
  call : ∀ c, NoUnres _ (E.call c)

theorem runProc_noUnres {α : Type} {cb : Callback P → Comp P X W (Val P)} (hcb : ∀ c, NoUnres _ (cb c))
    {p : Proc P X W α} (hp : p.honest) (st : StateId → TState P) :
    (runProc cb p st).1 ≠ .raise .unresolved := by
  induction hp generalizing st with
  | ret a m => exact nofun
  | raise e m h => intro h'; simp only [runProc] at h'; cases h'; exact h rfl
  | call c m k _ ih =>
    simp only [runProc]
    have hc := hcb c ⟨st, m⟩
    rcases hr : cb c ⟨st, m⟩ with ⟨r, M2⟩
    rw [hr] at hc
    cases r with
    | ok v => exact ih (.ok v) M2.mem nofun M2.states
    | raise e => exact ih (.error e) M2.mem (fun he => hc (by cases he; rfl)) M2.states
    | timeout => exact nofun

theorem EnvNoUnres.closed {E : Env P X W} (h : EnvNoUnres E) : Closed E NoUnres (fun _ => (· ≠ none)) where
  pure _ _ := nofun
  raise e he M := fun h => he (by cases h; rfl)
  unres h := (h rfl).elim
  timeout M := nofun
  bind := by
    intro α β c f hc hf M
    rw [Comp.bind_run]
    have h := hc M
    rcases hcM : c M with ⟨r, M1⟩
    rw [hcM] at h
    cases r with
    | ok a => exact hf a M1
    | raise e => exact fun he => h (by cases he; rfl)
    | timeout => exact nofun
  tryExcept := by
    intro α c d hc hd M
    have g := hc M
    simp only [Comp.tryExcept]
    rcases hcM : c M with ⟨r, M1⟩
    rw [hcM] at g
    cases r with
    | ok a => exact g
    | timeout => exact g
    | raise e =>
      simp only [Comp.handle]
      split
      · exact hd M1
      · exact g
  qual := by
    intro q c hc hq M
    have g := hc M
    simp only [Verif.qualified]
    rcases hcM : c M with ⟨r, M1⟩
    rw [hcM] at g
    cases r with
    | ok v => exact hq v M1
    | timeout => exact g
    | raise e =>
      simp only [qualStep]
      split
      · exact nofun
      · exact g
  py hc M := runProc_noUnres h.call (h.ops _ _ hc M.mem) M.states
  call := h.call
  getSlot _ _ _ M := nofun
  curIndent _ M := nofun
  readNode _ M := nofun
  countNodes M := nofun
  writeNode _ _ M := nofun
  allocNode _ M := nofun

theorem EnvNoUnres.frame {E : Env P X W} (h : EnvNoUnres E) (σ : StateId) :
    TransFrame E NoUnres σ (· ≠ none) (fun _ => (· ≠ none)) True where
  toClosed := h.closed
  expand hv b as kw := h.expand hv b as kw σ
  slot _ _ _ _ := nofun
  missing h := h
  ind _ _ _ := nofun
  keep _ hc M := hc trivial M

theorem envAt_noUnres (ops : PyOps P X W) (ho : ops.honest) (Γ : DefId → DefInfo P)
    (hΓ : ∀ id, (Γ id).reads (· ≠ none) ∧ (Γ id).writes (· ≠ none)) (n : Nat) :
    EnvNoUnres (envAt ops Γ n) := by
  induction n with
  | zero => exact ⟨ho, fun _ _ _ _ _ _ => nofun, fun _ _ => nofun⟩
  | succ n ih =>
    refine ⟨ho, fun hv b as kw σ => ?_, fun c => ?_⟩
    · show NoUnres _ (expandHyper (envAt ops Γ n) Γ hv b as kw σ)
      induction hv generalizing σ with
      | imported hv st ih' => exact ih' st
      | defn id => exact (ih.frame σ).expandDef id _ (hΓ id).1 (hΓ id).2 (fun h => (h trivial).elim) b as kw
    · have F := ih.closed
      refine F.bind ?_ (fun body => F.bind (ih.expand _ _ _ _ _) (fun dom => F.bind (F.setIndent _ _)
        (fun _ => F.bind (F.py (by constructor)) (fun _ => F.pure _))))
      cases c.body <;> first
        | exact F.pure _
        | exact F.bind (F.strOf _) (fun _ => F.bind (F.newText _ _) (fun _ => F.pure _))

end
end Verif
