import Verif.Spec.Fresh
import Verif.Lemmas.Keeps
import Verif.Lemmas.Dict

/-! Two runs that start with the same memory and agree on some variables. -/

namespace Verif
open Py Spec

section
variable {P X W α β : Type}

/-- Which variables of which states. -/
abbrev Shared := StateId → Slot → Prop

/-- The same memory and indentation, and the same values of the variables `S`. -/
structure Same (S : Shared) (M M' : Machine P W) : Prop where
  mem : M.mem = M'.mem
  indent : ∀ τ, (M.states τ).indentation = (M'.states τ).indentation
  values : ∀ τ sl, S τ sl → (M.states τ).values sl = (M'.states τ).values sl

/-- The results are the same, the variables in `S` stay the same, and those in `S'` are so if it succeeds. -/
def Learns (S S' : Shared) (c : Comp P X W α) : Prop :=
  ∀ M M', Same S M M' → (c M).1 = (c M').1 ∧ Same S (c M).2 (c M').2 ∧ ∀ a, (c M).1 = .ok a → Same S' (c M).2 (c M').2

/-- The same, without more variables. -/
def Blind (S : Shared) (α : Type) (c : Comp P X W α) : Prop := Learns S S c

/-- More variables of a state. -/
def Shared.add (S : Shared) (σ : StateId) (K : Slot → Prop) : Shared := fun τ sl => S τ sl ∨ (τ = σ ∧ K sl)

theorem Same.sub {S S' : Shared} {M M' : Machine P W} (h : Same S M M') (hs : ∀ τ sl, S' τ sl → S τ sl) : Same S' M M' :=
  ⟨h.mem, h.indent, fun τ sl k => h.values τ sl (hs τ sl k)⟩

theorem Learns.sub {S S' S'' : Shared} {c : Comp P X W α} (h : Learns S S' c) (hs : ∀ τ sl, S'' τ sl → S' τ sl) : Learns S S'' c :=
  fun M M' k => ⟨(h M M' k).1, (h M M' k).2.1, fun a ha => ((h M M' k).2.2 a ha).sub hs⟩

theorem Learns.pure {S : Shared} (a : α) : Learns S S (Pure.pure a : Comp P X W α) := fun _ _ k => ⟨rfl, k, fun _ _ => k⟩

theorem Learns.raise {S S' : Shared} (e : Exn X) : Learns S S' (Comp.raise e : Comp P X W α) := fun _ _ k => ⟨rfl, k, fun _ h => nomatch h⟩

theorem Learns.bind {S S1 S2 : Shared} {c : Comp P X W α} {f : α → Comp P X W β} (h : Learns S S1 c) (hf : ∀ a, Learns S1 S2 (f a))
    (h1 : ∀ τ sl, S τ sl → S1 τ sl) : Learns S S2 (c >>= f) := by
  intro M M' k
  obtain ⟨e, k1, k2⟩ := h M M' k
  rw [Comp.bind_run, Comp.bind_run]
  rcases hc : c M with ⟨r, N⟩
  rcases hc' : c M' with ⟨r', N'⟩
  rw [hc, hc'] at e k1 k2
  simp only at e k1 k2
  subst e
  cases r with
  | ok a =>
    obtain ⟨e1, j1, j2⟩ := hf a N N' (k2 a rfl)
    exact ⟨e1, j1.sub h1, j2⟩
  | raise x => exact ⟨rfl, k1, fun a h => nomatch h⟩
  | timeout => exact ⟨rfl, k1, fun a h => nomatch h⟩

/-- When nothing is learned first. -/
theorem Learns.after {S S2 : Shared} {c : Comp P X W α} {f : α → Comp P X W β} (h : Blind S α c) (hf : ∀ a, Learns S S2 (f a)) : Learns S S2 (c >>= f) :=
  Learns.bind h hf (fun _ _ k => k)

/-- When only nothing is learned later. -/
theorem Learns.first {S S1 : Shared} {c : Comp P X W α} {f : α → Comp P X W β} (h : Learns S S1 c) (hf : ∀ a, Blind S1 β (f a))
    (h1 : ∀ τ sl, S τ sl → S1 τ sl) : Learns S S1 (c >>= f) := Learns.bind h hf h1

theorem updState_same {S : Shared} {M M' : Machine P W} (h : Same S M M') (σ : StateId) {f g : TState P → TState P} {S' : Shared}
    (hi : ∀ s s' : TState P, s.indentation = s'.indentation → (f s).indentation = (g s').indentation)
    (hv : ∀ sl, S' σ sl → (f (M.states σ)).values sl = (g (M'.states σ)).values sl) (hs : ∀ τ sl, τ ≠ σ → S' τ sl → S τ sl) :
    Same S' (M.updState σ f) (M'.updState σ g) := by
  refine ⟨h.mem, fun τ => ?_, fun τ sl k => ?_⟩
  · by_cases hτ : τ = σ
    · simp only [Machine.updState, hτ, if_true]
      exact hi _ _ (h.indent σ)
    · simp only [Machine.updState, hτ, if_false]
      exact h.indent τ
  · by_cases hτ : τ = σ
    · subst hτ
      simp only [Machine.updState, if_true]
      exact hv sl k
    · simp only [Machine.updState, hτ, if_false]
      exact h.values τ sl (hs τ sl hτ k)

theorem setSlot_learns (S : Shared) (σ : StateId) (sl : Slot) (v : Val P) :
    Learns S (S.add σ (· = sl)) (setSlot σ sl v : Comp P X W Unit) := by
  intro M M' h
  have : Same (S.add σ (· = sl)) ((setSlot σ sl v : Comp P X W Unit) M).2 ((setSlot σ sl v : Comp P X W Unit) M').2 := by
    let f : TState P → TState P := fun s => { s with values := fun t => if t = sl then some v else s.values t }
    refine updState_same (f := f) (g := f) h σ (fun _ _ e => e) (fun sl' k => ?_) (fun τ sl' hτ k => ?_)
    · simp only [f]
      split
      · rfl
      · rename_i hne
        rcases k with k | ⟨_, k⟩
        · exact h.values σ sl' k
        · exact absurd k hne
    · rcases k with k | k
      · exact k
      · exact absurd k.1 hτ
  exact ⟨rfl, this.sub (fun _ _ k => .inl k), fun _ _ => this⟩

theorem putIndent_blind (S : Shared) (σ : StateId) (s : Str) : Blind S Unit (putIndent σ s : Comp P X W Unit) := by
  intro M M' h
  have : Same S ((putIndent σ s : Comp P X W Unit) M).2 ((putIndent σ s : Comp P X W Unit) M').2 :=
    updState_same (f := fun t => { t with indentation := s }) (g := fun t => { t with indentation := s }) h σ (fun _ _ _ => rfl)
      (fun sl k => h.values σ sl k) (fun _ _ _ k => k)
  exact ⟨rfl, this, fun _ _ => this⟩

theorem keepIndent_learns {S S' : Shared} (σ : StateId) {c : Comp P X W α} (h : Learns S S' c) : Learns S S' (keepIndent σ c) := by
  intro M M' k
  obtain ⟨e, k1, k2⟩ := h M M' k
  refine ⟨e, ?_, fun a ha => ?_⟩
  · exact updState_same (f := fun t => { t with indentation := (M.states σ).indentation })
      (g := fun t => { t with indentation := (M'.states σ).indentation }) k1 σ (fun _ _ _ => k.indent σ)
      (fun sl k => k1.values σ sl k) (fun _ _ _ k => k)
  · exact updState_same (f := fun t => { t with indentation := (M.states σ).indentation })
      (g := fun t => { t with indentation := (M'.states σ).indentation }) (k2 a ha) σ (fun _ _ _ => k.indent σ)
      (fun sl k' => (k2 a ha).values σ sl k') (fun _ _ _ k => k)

theorem runProc_blind {S : Shared} {cb : Callback P → Comp P X W (Val P)} (hcb : ∀ c, Blind S _ (cb c)) (p : Proc P X W α) :
    ∀ st st' : StateId → TState P, (∀ τ, (st τ).indentation = (st' τ).indentation) → (∀ τ sl, S τ sl → (st τ).values sl = (st' τ).values sl) →
      (runProc cb p st).1 = (runProc cb p st').1 ∧ Same S (runProc cb p st).2 (runProc cb p st').2 := by
  induction p with
  | ret a m => exact fun st st' h1 h2 => ⟨rfl, rfl, h1, h2⟩
  | raise e m => exact fun st st' h1 h2 => ⟨rfl, rfl, h1, h2⟩
  | call c m k ih =>
    intro st st' h1 h2
    obtain ⟨e, k1, -⟩ := hcb c ⟨st, m⟩ ⟨st', m⟩ ⟨rfl, h1, h2⟩
    simp only [runProc]
    rcases hc : cb c ⟨st, m⟩ with ⟨r, N⟩
    rcases hc' : cb c ⟨st', m⟩ with ⟨r', N'⟩
    rw [hc, hc'] at e k1
    simp only at e k1
    subst e
    cases r with
    | ok v =>
      simp only
      rw [← k1.mem]
      exact ih _ _ _ _ k1.indent k1.values
    | raise x =>
      simp only
      rw [← k1.mem]
      exact ih _ _ _ _ k1.indent k1.values
    | timeout => exact ⟨rfl, k1⟩

/-- Hypertags of the environment give the same results and leave the same variables. -/
structure EnvBlind (S : Shared) (E : Env P X W) : Prop where
  expand : ∀ h b as kw σ, Blind S _ (E.expand h b as kw σ)
  call : ∀ c, Blind S _ (E.call c)

theorem mem_blind {S : Shared} (c : Comp P X W α) (f : Mem P W → Res X α × Mem P W) (h : ∀ M, c M = ((f M.mem).1, ⟨M.states, (f M.mem).2⟩)) :
    Blind S α c := by
  intro M M' k
  rw [h, h, ← k.mem]
  have : Same S (⟨M.states, (f M.mem).2⟩ : Machine P W) ⟨M'.states, (f M.mem).2⟩ := ⟨rfl, k.indent, k.values⟩
  exact ⟨rfl, this, fun _ _ => this⟩

theorem EnvBlind.closed {S : Shared} {E : Env P X W} (h : EnvBlind S E) : Closed E (Blind S) (fun τ => Known (S τ)) where
  pure := .pure
  raise e _ := .raise e
  unres _ := .raise _
  timeout _ _ k := ⟨rfl, k, fun _ h => nomatch h⟩
  bind hc hf := .after hc hf
  tryExcept := by
    intro α c d hc hd M M' k
    obtain ⟨e, k1, k2⟩ := hc M M' k
    simp only [Comp.tryExcept]
    rcases hcM : c M with ⟨r, N⟩
    rcases hcM' : c M' with ⟨r', N'⟩
    rw [hcM, hcM'] at e k1
    simp only at e k1
    subst e
    cases r with
    | ok a => exact ⟨rfl, k1, fun _ _ => k1⟩
    | timeout => exact ⟨rfl, k1, fun _ _ => k1⟩
    | raise x =>
      simp only [Comp.handle]
      split
      · exact hd N N' k1
      · exact ⟨rfl, k1, fun _ _ => k1⟩
  qual := by
    intro q c hc hq M M' k
    obtain ⟨e, k1, k2⟩ := hc M M' k
    simp only [Verif.qualified]
    rcases hcM : c M with ⟨r, N⟩
    rcases hcM' : c M' with ⟨r', N'⟩
    rw [hcM, hcM'] at e k1
    simp only at e k1
    subst e
    cases r with
    | ok v => exact hq v N N' k1
    | timeout => exact ⟨rfl, k1, fun _ _ => k1⟩
    | raise x =>
      simp only [qualStep]
      split
      · exact ⟨rfl, k1, fun _ _ => k1⟩
      · exact ⟨rfl, k1, fun _ _ => k1⟩
  py := by
    intro α c _ M M' k
    have := runProc_blind h.call (c M.mem) M.states M'.states k.indent k.values
    simp only [runPy]
    rw [← k.mem]
    exact ⟨this.1, this.2, fun _ _ => this.2⟩
  call := h.call
  getSlot := by
    intro σ sl hs M M' k
    refine ⟨?_, k, fun _ _ => k⟩
    simp only [getSlot, k.values σ sl (hs sl rfl)]
  curIndent := by
    intro σ M M' k
    refine ⟨?_, k, fun _ _ => k⟩
    simp only [curIndent, k.indent σ]
  readNode r := mem_blind _ (fun m => (.ok (m.nodes r), m)) (fun M => rfl)
  countNodes := mem_blind _ (fun m => (.ok m.next, m)) (fun M => rfl)
  writeNode r n := mem_blind _ (fun m => ((writeNode r n : Comp P X W Unit) ⟨fun _ => ⟨fun _ => none, []⟩, m⟩ |> fun x => (x.1, x.2.mem))) (fun M => rfl)
  allocNode n := mem_blind _ (fun m => ((allocNode n : Comp P X W Ref) ⟨fun _ => ⟨fun _ => none, []⟩, m⟩ |> fun x => (x.1, x.2.mem))) (fun M => rfl)

theorem EnvBlind.frame {S : Shared} {E : Env P X W} (h : EnvBlind S E) (σ : StateId) :
    TransFrame E (Blind S) σ (fun _ => True) (fun τ => Known (S τ)) True where
  toClosed := h.closed
  expand hv b as kw := h.expand hv b as kw σ
  slot sl v _ := (setSlot_learns S σ sl v).sub (fun _ _ k => .inl k)
  missing _ := fun _ h => nomatch h
  ind _ s := putIndent_blind S σ s
  keep _ hc := keepIndent_learns σ (hc trivial)

end
end Verif
