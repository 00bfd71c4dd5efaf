import Verif.Props.UnusedVar

/-! C126: imports that are not used. -/

set_option linter.unusedSectionVars false

namespace Verif
open Py Spec

section
variable {P X W I : Type}

/-! ### C126 An import that is not needed makes no difference -/

/-- The result of a document, with some of the exported symbols only. -/
def keepSymbols (q : Str → Bool) : Res X (Ref × Dict Str (Val P)) → Res X (Ref × Dict Str (Val P))
  | .ok (root, symbols) => .ok (root, symbols.filter (fun x => q x.1))
  | .raise e => .raise e
  | .timeout => .timeout

/-! #### Slots -/

/-- The other direction of `liftSlot`; slots from `n` to `n + w - 1` correspond to none. -/
def lowerSlot (n w : Nat) (t : Nat) : Nat := if t < n then t else t - w

theorem lower_lift (n w s : Nat) : lowerSlot n w (liftSlot n w s) = s := by
  have e : liftSlot n w s = (if s < n then s else s + w : Nat) := rfl
  rw [e]
  unfold lowerSlot
  by_cases h : s < n
  · rw [if_pos h, if_pos h]
  · rw [if_neg h, if_neg (by omega)]; omega

theorem lift_low {n w s : Nat} (h : s < n) : liftSlot n w s = s := if_pos h

theorem lift_outside (n w s : Nat) : liftSlot n w s < n ∨ n + w ≤ liftSlot n w s := by
  have e : liftSlot n w s = (if s < n then s else s + w : Nat) := rfl
  rw [e]
  split
  · exact .inl ‹_›
  · right; show (_ : Nat) ≤ _; omega

theorem lift_own_all (n w : Nat) (o : Option Slot) : Own (liftSlot n w) o := fun sl _ s h => by
  have := congrArg (lowerSlot n w) h
  rwa [lower_lift, lower_lift] at this

/-! #### Analysis of imports -/

/-- The slots of an import. -/
def ImportItem.within (lo hi : Nat) : ImportItem P → Prop
  | .wild (some l) => ∀ x ∈ l, lo ≤ x.1 ∧ x.1 < hi
  | .wild none => False
  | .name _ _ (some x) => lo ≤ x.1 ∧ x.1 < hi
  | .name _ _ none => False
  | .cntx _ _ (some x) => lo ≤ x.1 ∧ x.1 < hi
  | .cntx _ _ none => False

theorem ImportItem.within_mono {lo lo' hi hi' : Nat} (h : lo' ≤ lo) (h' : hi ≤ hi') {i : ImportItem P} (w : i.within lo hi) : i.within lo' hi' := by
  match i, w with
  | .wild (some _), w => exact fun x hx => ⟨Nat.le_trans h (w x hx).1, Nat.lt_of_lt_of_le (w x hx).2 h'⟩
  | .name _ _ (some _), w => exact ⟨Nat.le_trans h w.1, Nat.lt_of_lt_of_le w.2 h'⟩
  | .cntx _ _ (some _), w => exact ⟨Nat.le_trans h w.1, Nat.lt_of_lt_of_le w.2 h'⟩

theorem newSlot_next {c c' : Ctx} {y : Str} {s : SlotInfo} (h : (newSlot c y : Except (AErr I) _) = .ok (s, c')) : s.id = c.next ∧ c'.next = c.next + 1 := by
  unfold newSlot at h
  split at h
  · cases h; exact ⟨rfl, rfl⟩
  · cases h

theorem valueSlots_ids : ∀ (l : List (Str × Val P)) {c c' : Ctx} {r : List (Str × Slot × Val P)}, (valueSlots l c : Except (AErr I) _) = .ok (r, c') →
    c.next ≤ c'.next ∧ ∀ x ∈ r, c.next ≤ x.2.1 ∧ x.2.1 < c'.next
  | [], c, c', r, h => by
    simp only [valueSlots] at h
    cases h
    exact ⟨Nat.le_refl _, by simp⟩
  | (y, v) :: l, c, c', r, h => by
    simp only [valueSlots] at h
    obtain ⟨⟨s, c1⟩, e1, h⟩ := Except.bind_eq_ok.1 h
    obtain ⟨⟨r1, c2⟩, e2, h⟩ := Except.bind_eq_ok.1 h
    cases h
    obtain ⟨h1, h2⟩ := newSlot_next e1
    obtain ⟨h3, h4⟩ := valueSlots_ids l e2
    rw [h2] at h3 h4
    refine ⟨Nat.le_of_succ_le h3, fun x hx => ?_⟩
    rcases List.mem_cons.1 hx with rfl | hx
    · show c.next ≤ s.id ∧ s.id < c2.next
      rw [h1]
      exact ⟨Nat.le_refl _, h3⟩
    · exact ⟨Nat.le_of_succ_le (h4 x hx).1, (h4 x hx).2⟩

theorem analyseImport_next (src : Source P I) (path : Option Str) {i i' : ImportItem P} {c c' : Ctx} (h : analyseImport src path i c = .ok (i', c')) :
    c.next ≤ c'.next ∧ i'.within c.next c'.next := by
  cases i with
  | wild sl =>
    simp only [analyseImport] at h
    obtain ⟨⟨syms, st⟩, -, h⟩ := Except.bind_eq_ok.1 h
    obtain ⟨pub, -, h⟩ := Except.bind_eq_ok.1 h
    obtain ⟨⟨l, c1⟩, e, h⟩ := Except.bind_eq_ok.1 h
    cases h
    obtain ⟨h1, h2⟩ := valueSlots_ids pub e
    refine ⟨h1, ?_⟩
    intro x hx
    obtain ⟨z, hz, rfl⟩ := List.mem_map.1 hx
    exact h2 z hz
  | name sym ren sl =>
    simp only [analyseImport] at h
    split at h
    · cases h
    obtain ⟨⟨syms, st⟩, -, h⟩ := Except.bind_eq_ok.1 h
    simp only at h
    split at h
    · cases h
    obtain ⟨⟨s, c1⟩, e, h⟩ := Except.bind_eq_ok.1 h
    cases h
    obtain ⟨h1, h2⟩ := newSlot_next e
    refine ⟨by rw [h2]; exact Nat.le_succ _, ?_⟩
    show c.next ≤ s.id ∧ s.id < c1.next
    rw [h1, h2]
    exact ⟨Nat.le_refl _, Nat.lt_succ_self _⟩
  | cntx sym ren sl =>
    simp only [analyseImport] at h
    split at h
    · cases h
    obtain ⟨⟨s, c1⟩, e, h⟩ := Except.bind_eq_ok.1 h
    cases h
    obtain ⟨h1, h2⟩ := newSlot_next e
    refine ⟨by rw [h2]; exact Nat.le_succ _, ?_⟩
    show c.next ≤ s.id ∧ s.id < c1.next
    rw [h1, h2]
    exact ⟨Nat.le_refl _, Nat.lt_succ_self _⟩

theorem analyseImports_next (src : Source P I) (path : Option Str) : ∀ {is is' : List (ImportItem P)} {c c' : Ctx},
    analyseImports src path is c = .ok (is', c') → c.next ≤ c'.next ∧ ∀ i ∈ is', i.within c.next c'.next
  | [], is', c, c', h => by
    simp only [analyseImports] at h
    cases h
    exact ⟨Nat.le_refl _, by simp⟩
  | i :: is, is', c, c', h => by
    simp only [analyseImports] at h
    obtain ⟨⟨i1, c1⟩, e1, h⟩ := Except.bind_eq_ok.1 h
    obtain ⟨⟨is1, c2⟩, e2, h⟩ := Except.bind_eq_ok.1 h
    cases h
    obtain ⟨h1, h2⟩ := analyseImport_next src path e1
    obtain ⟨h3, h4⟩ := analyseImports_next src path e2
    refine ⟨Nat.le_trans h1 h3, fun x hx => ?_⟩
    rcases List.mem_cons.1 hx with rfl | hx
    · exact ImportItem.within_mono (Nat.le_refl _) h3 h2
    · exact ImportItem.within_mono h1 (Nat.le_refl _) (h4 x hx)

theorem leave_rest (s : Stmt P) (c : Ctx) : (leaveProlog s c).binds = c.binds ∧ (leaveProlog s c).regular = c.regular ∧
    (leaveProlog s c).control = c.control ∧ (leaveProlog s c).hypertag = c.hypertag ∧ (leaveProlog s c).next = c.next := by
  unfold leaveProlog
  split <;> exact ⟨rfl, rfl, rfl, rfl, rfl⟩

theorem analyse_imports {src : Source P I} {b : Bool} {path : Option Str} {is : List (ImportItem P)} {c c' : Ctx} {s' : Stmt P}
    (h : analyse src (.imports b path is) (leaveProlog (.imports b path is) c) = .ok (s', c')) :
    ∃ is', s' = .imports b path is' ∧ c.next ≤ c'.next ∧ (∀ i ∈ is', i.within c.next c'.next) ∧ (b = true → c'.prolog = c.prolog) := by
  cases b with
  | true =>
    simp only [analyse] at h
    split at h
    · obtain ⟨⟨is', c2⟩, e, h⟩ := Except.bind_eq_ok.1 h
      cases h
      obtain ⟨h1, h2⟩ := analyseImports_next src path e
      exact ⟨is', rfl, h1, h2, fun _ => (analyseImports_prolog src path is _ _ e).1⟩
    · cases h
  | false =>
    simp only [analyse] at h
    split at h
    · cases h
    · obtain ⟨⟨is', c2⟩, e, h⟩ := Except.bind_eq_ok.1 h
      cases h
      obtain ⟨h1, h2⟩ := analyseImports_next src path e
      exact ⟨is', rfl, h1, h2, fun h => nomatch h⟩

/-! #### Translation of imports -/

/-- A computation that only writes to slots outside of the range of `f`. -/
def Aside (f : Slot → Slot) (c : Comp P X W Unit) : Prop := Sim f (Pure.pure () : Comp P X W Unit) c

theorem Aside.setSlot {f : Slot → Slot} (σ : StateId) (s : Slot) (v : Val P) (hs : ∀ t, f t ≠ s) : Aside f (Verif.setSlot σ s v : Comp P X W Unit) := by
  intro M M' hM
  refine ⟨rfl, hM.mem, fun τ => ?_, fun τ t => ?_⟩
  · show (M.states τ).indentation = ((M'.updState σ (fun s' => { s' with values := fun t => if t = s then some v else s'.values t })).states τ).indentation
    unfold Machine.updState
    simp only
    split
    · exact hM.ind τ
    · exact hM.ind τ
  · show (M.states τ).values t = ((M'.updState σ (fun s' => { s' with values := fun t => if t = s then some v else s'.values t })).states τ).values (f t)
    unfold Machine.updState
    simp only
    split
    · simp only [if_neg (hs t)]; exact hM.val τ t
    · exact hM.val τ t

theorem Aside.both {f : Slot → Slot} {c d : Comp P X W Unit} (h : Aside f c) (h' : Aside f d) : Aside f (c >>= fun _ => d) := by
  have := Sim.bind h (fun _ => h')
  rwa [Comp.pure_bind] at this

theorem Aside.setSlots {f : Slot → Slot} (σ : StateId) : ∀ l : List (Slot × Val P), (∀ x ∈ l, ∀ t, f t ≠ x.1) → Aside f (Verif.setSlots σ l : Comp P X W Unit)
  | [], _ => by simp only [Verif.setSlots]; exact Sim.pure _
  | (s, v) :: l, h => by
    simp only [Verif.setSlots]
    exact Aside.both (Aside.setSlot σ s v (h (s, v) List.mem_cons_self)) (Aside.setSlots σ l (fun x hx => h x (List.mem_cons_of_mem _ hx)))

theorem Aside.imports {f : Slot → Slot} {lo hi : Nat} (hf : ∀ t : Slot, f t < lo ∨ hi ≤ f t) (σ : StateId) : ∀ is : List (ImportItem P),
    (∀ i ∈ is, i.within lo hi) → Aside f (translImports σ is : Comp P X W Unit)
  | [], _ => by simp only [translImports]; exact Sim.pure _
  | i :: is, h => by
    have ne : ∀ {s : Slot}, lo ≤ s ∧ s < hi → ∀ t, f t ≠ s := by
      rintro s ⟨h1, h2⟩ t rfl
      rcases hf t with h | h
      · exact absurd (Nat.lt_of_lt_of_le h h1) (Nat.lt_irrefl _)
      · exact absurd (Nat.lt_of_lt_of_le h2 h) (Nat.lt_irrefl _)
    simp only [translImports]
    refine Aside.both ?_ (Aside.imports hf σ is (fun x hx => h x (List.mem_cons_of_mem _ hx)))
    have hi := h i List.mem_cons_self
    unfold ImportItem.within at hi
    split at hi <;> simp only [translImport]
    · exact Aside.setSlots σ _ (fun x hx => ne (hi x hx))
    · exact hi.elim
    · exact Aside.setSlot σ _ _ (ne hi)
    · exact hi.elim
    · exact Aside.setSlot σ _ _ (ne hi)
    · exact hi.elim

/-- The import makes the blank lines above it only. -/
theorem imports_silent {lo hi : Nat} {f : Slot → Slot} {E E' : Env P X W} (hE : SimEnv f E E') (hf : ∀ t : Slot, f t < lo ∨ hi ≤ f t) (σ : StateId) (m : Str)
    (mo : Option Modifier) (b : Bool) (path : Option Str) (is : List (ImportItem P)) (h : ∀ i ∈ is, i.within lo hi) :
    Sim f (translStatic m : Comp P X W (List Ref)) (do let r ← transl E' σ (.xblock m mo (.imports b path is)); return nodesOf r) := by
  have e : (do let r ← transl E' σ (.xblock m mo (.imports b path is)); return nodesOf r : Comp P X W (List Ref)) =
      translStatic m >>= fun a => translImports σ is >>= fun _ => Pure.pure a := by
    simp only [transl, Comp.bind_assoc, Comp.pure_bind, finishBlock]
    rfl
  rw [e]
  have h1 := Sim.bind (translStatic_sim hE m) (fun a => Sim.bind (Aside.imports hf σ is h) (fun _ => Sim.pure a))
  simp only [Comp.pure_bind, Comp.bind_pure] at h1
  exact h1

section
variable {src : Source P I} {g : Dict Str (Val P)} {ss1 ss2 : List (Stmt P)} {mk : Marks} {U : Uni}

/-! #### Statements that are passed -/

/-- A statement that makes the blank lines above it only, and writes to slots from `lo` to `hi - 1` only; loops are executed up to their `L`-th test at least. -/
def Stmt.Aside (L : Nat) (s : Stmt P) (lo hi : Nat) : Prop :=
  ∀ (X W : Type) (f : Slot → Slot) (E E' : Env P X W), L ≤ E'.fuel → SimEnv f E E' → (∀ t : Slot, f t < lo ∨ hi ≤ f t) → ∀ (σ : StateId) (m : Str) (mo : Option Modifier),
    Sim f (translStatic m : Comp P X W (List Ref)) (do let r ← transl E' σ (.xblock m mo s); return nodesOf r)

/-- A statement that, when it is translated, writes to its new slots at most, and makes nothing; if `K`, context blocks are allowed below as above. -/
def Stmt.Passes (L : Nat) (s : Stmt P) (src : Source P I) (K : Prop) : Prop :=
  ∀ c s' c', analyse src s (leaveProlog s c) = .ok (s', c') → c.next ≤ c'.next → s'.defs = [] ∧ (K → c'.prolog = c.prolog) ∧ s'.Aside L c.next c'.next

/-- What analysis finds above the statement, and at it: its slots are those from `n` to `n + w - 1`. -/
structure PassedOut (L : Nat) (first : Slot) (g : Dict Str (Val P)) (q : Str → Bool) (n w : Nat)
    (a : List (Stmt P)) (s : Stmt P) (o1 ob : List (Str × SlotInfo)) : Prop where
  low : first + g.length ≤ n
  one : NeatAll 0 n a
  defs : s.defs = []
  aside : s.Aside L n (n + w)
  bound : ∀ x ∈ ob, q x.1 = false
  outs1 : ∀ x ∈ o1, x.2.id < n

theorem passed_out (hg : ∀ x ∈ g, validSymbol x.1 = true) {m : Str} {mo : Option Modifier} {s : Stmt P} {K : Prop} {L : Nat} (hs : s.Passes L src K) {q : Str → Bool}
    (ht : Stmt.tailsAll Stmt.bare (ss1 ++ .xblock m mo s :: ss2)) (hq : ∀ y ∈ s.defines src, q y = false)
    (hu : Stmt.onlyNamesAll src (fun y => q y = true) ss2) (hx : K ∨ Stmt.noContextAll ss2) (first : Slot) {doc0 : Document P}
    (h0 : analyseDocument src first g (ss1 ++ [.xblock m mo s]) = .ok doc0) :
    (∃ e, analyseDocument src first g (ss1 ++ .xblock m mo s :: ss2) = .error e ∧
      analyseDocument src first g (ss1 ++ blankLines m ++ ss2) = .error e) ∨
    ∃ n w a s' c o1 ob o2, PassedOut L first g q n w a s' o1 ob ∧
      analyseDocument src first g (ss1 ++ .xblock m mo s :: ss2) =
        .ok ⟨fills first g, a ++ [.xblock m mo s'] ++ Stmt.reslotAll (liftSlot n w) c,
          (Dict.update [] (o1 ++ ob ++ reslotBinds (liftSlot n w) o2)).map (fun p => (p.1, p.2.id))⟩ ∧
      analyseDocument src first g (ss1 ++ blankLines m ++ ss2) =
        .ok ⟨fills first g, a ++ blankLines m ++ c, (Dict.update [] (o1 ++ o2)).map (fun p => (p.1, p.2.id))⟩ := by
  obtain ⟨ht1, ht⟩ := tailsAll_both ht
  simp only [Stmt.tailsAll] at ht
  obtain ⟨td, ht2⟩ := ht
  rw [analyseDocument_open hg, analyseAll_append] at h0
  rw [analyseDocument_open hg, analyseDocument_open hg, List.append_assoc]
  cases e1 : analyseAll src ss1 (openCtx first g) with
  | error e => rw [e1] at h0; cases h0
  | ok r1 =>
    obtain ⟨a, c1⟩ := r1
    rw [e1] at h0
    have hgr := (analyseAll_grows src ss1 (openCtx first g)) _ e1
    have hS1 := seating_same (seats first g)
    have hopen : ∀ x ∈ (openCtx first g).binds, x.2.id < (openCtx first g).next := fun x hx => (seats_mem g first x hx).2.2
    obtain ⟨c1', k1, n1, q1⟩ := (analyseAll_seated (src := src) hS1 ss1 _ _ (Ctx.seat_same hopen) (Stmt.onlyNamesAll_any src ss1) ht1 (.inl trivial)
      (fun _ _ _ h => absurd h (Nat.lt_irrefl _))).result e1
    obtain ⟨o1, b1, _⟩ := hgr.binds
    have b1 : c1.binds = seats first g ++ o1 := b1
    cases e2 : analyse src s (leaveProlog s c1) with
    | error e =>
      have h0 : ((analyseAll src [.xblock m mo s] c1 >>= fun r => Pure.pure (a ++ r.1, r.2)) >>= _) = Except.ok doc0 := h0
      simp only [analyseAll, analyse_xblock, e2] at h0
      cases h0
    | ok r2 =>
      obtain ⟨s', c2⟩ := r2
      have hgr2 := (analyse_grows src s (leaveProlog s c1)) _ e2
      obtain ⟨ob, f3, hob⟩ := hgr2.binds
      rw [(leave_rest _ c1).1] at f3
      have hob : ∀ x ∈ ob, q x.1 = false := fun x hx => hq _ (hob x hx)
      have hl := leave_rest s c1
      have hk : ∀ x ∈ (leaveProlog s c1).binds, x.2.id < (leaveProlog s c1).next := by
        rw [hl.1, hl.2.2.2.2]; exact k1.below
      simp only [Stmt.tails] at td
      obtain ⟨_, _, h1, _⟩ := (analyse_seated (src := src) (seating_same (leaveProlog s c1).binds) s _ _ (Ctx.seat_same hk) (Stmt.onlyNames_any src s) td (.inl trivial)
        (fun _ _ _ h => absurd h (Nat.lt_irrefl _))).result e2
      have h1 : c1.next ≤ c2.next := hl.2.2.2.2 ▸ h1.1
      obtain ⟨h2, hp, h3⟩ := hs _ _ _ e2 h1
      obtain ⟨w, hw⟩ := Nat.exists_eq_add_of_le h1
      rw [hw] at h3
      have hlow : ∀ x : Slot, x < c1.next → liftSlot c1.next w x = x := fun x hx => if_pos hx
      have hS2 : Seating (liftSlot c1.next w) (fun y => q y = true) 0 c1.binds c2.binds := by
        refine ⟨fun y hy => ?_, fun h => absurd h (Nat.lt_irrefl _)⟩
        rw [f3, lookupBind_app, lookupBind_none (l := ob)]
        · show lookupBind c1.binds y = _
          cases hl : lookupBind c1.binds y with
          | none => rfl
          | some i =>
            have := k1.below _ (lookupBind_mem hl)
            show some i = some (⟨liftSlot c1.next w i.id, i.depth⟩ : SlotInfo)
            rw [hlow _ this]
        · intro hm
          obtain ⟨x, hx, rfl⟩ := List.mem_map.1 hm
          rw [hob x hx] at hy
          cases hy
      have hc2 : Ctx.Seat (liftSlot c1.next w) (fun y => q y = true) 0 K c1.binds c2.binds c1 c2 := by
        refine ⟨⟨[], by simp, by simp [reslotBinds], by simp⟩, hgr2.regular.trans (leave_rest _ c1).2.1, hgr2.control.trans (leave_rest _ c1).2.2.1, hgr2.hypertag.trans (leave_rest _ c1).2.2.2.1, hp, ?_, fun n hn => ?_, Nat.zero_le _, k1.below⟩
        · rw [hw]; unfold liftSlot; rw [if_neg (Nat.lt_irrefl _)]
        · unfold liftSlot
          rw [if_neg (Nat.not_lt.2 hn), if_neg (Nat.not_lt.2 (Nat.le_succ_of_le hn)), Nat.add_right_comm]
      have A : analyseAll src (ss1 ++ .xblock m mo s :: ss2) (openCtx first g) =
          (analyseAll src ss2 c2 >>= fun r => Pure.pure (a ++ Stmt.xblock m mo s' :: r.1, r.2)) := by
        rw [analyseAll_append, e1]
        show (analyseAll src (_ :: ss2) c1 >>= fun r => Pure.pure (a ++ r.1, r.2)) = _
        simp only [analyseAll, analyse_xblock, e2]
        show ((analyseAll src ss2 c2 >>= fun r => Pure.pure (Stmt.xblock m mo s' :: r.1, r.2)) >>= _) = _
        cases analyseAll src ss2 c2 <;> rfl
      have B : analyseAll src (ss1 ++ (blankLines m ++ ss2)) (openCtx first g) =
          (analyseAll src ss2 c1 >>= fun r => Pure.pure (a ++ (blankLines m ++ r.1), r.2)) := by
        rw [analyseAll_append, e1]
        show (analyseAll src (blankLines m ++ ss2) c1 >>= fun r => Pure.pure (a ++ r.1, r.2)) = _
        rw [analyseAll_blank]
        cases analyseAll src ss2 c1 <;> rfl
      rw [A, B]
      rcases analyseAll_seated (src := src) hS2 ss2 _ _ hc2 hu ht2 hx (fun _ _ _ h => absurd h (Nat.lt_irrefl _)) with
        ⟨e, g1, g2⟩ | ⟨c, c3, c3', g1, g2, g3, g4, g5⟩
      · rw [g1, g2]; exact .inl ⟨e, rfl, rfl⟩
      · rw [g1, g2]
        obtain ⟨o2, b3, b3', _⟩ := g3.binds
        refine .inr ⟨c1.next, w, a, s', c, o1, ob, o2, ⟨n1.1, q1, h2, h3, hob, fun x hx => k1.below x (by rw [b1]; exact List.mem_append_right _ hx)⟩, ?_, ?_⟩
        · show Except.ok _ = Except.ok _
          congr 2
          · simp
          · unfold exportsOf
            rw [b3', f3, b1, List.append_assoc, List.append_assoc, ← seats_length g first, List.drop_left, List.append_assoc]
        · show Except.ok _ = Except.ok _
          congr 2
          · simp
          · unfold exportsOf
            rw [b3, b1, List.append_assoc, ← seats_length g first, List.drop_left]

/-- Exported symbols, other than the imported ones. -/
theorem exports_kept {n w : Nat} {q : Str → Bool} {o1 ob o2 : List (Str × SlotInfo)} (hb : ∀ x ∈ ob, q x.1 = false) (h1 : ∀ x ∈ o1, x.2.id < n) :
    ((Dict.update [] (o1 ++ ob ++ reslotBinds (liftSlot n w) o2)).map (fun p => (p.1, p.2.id))).filter (fun x => q x.1) =
      (((Dict.update [] (o1 ++ o2)).map (fun p => (p.1, p.2.id))).filter (fun x => q x.1)).map (fun x => (x.1, liftSlot n w x.2)) := by
  have e1 : reslotBinds (liftSlot n w) o1 = o1 := map_fix (fun x hx => by
    show (x.1, (⟨liftSlot n w x.2.id, x.2.depth⟩ : SlotInfo)) = x
    rw [lift_low (h1 x hx)])
  have f : ∀ l : List (Str × SlotInfo), (l.map (fun p => (p.1, p.2.id))).filter (fun x => q x.1) =
      (l.filter (fun x => q x.1)).map (fun p => (p.1, p.2.id)) := fun l => by
    rw [List.filter_map]; rfl
  have k := fun l : List (Str × SlotInfo) => Dict.filter_update q l []
  rw [f, f, k, k]
  have e3 : (o1 ++ ob ++ reslotBinds (liftSlot n w) o2).filter (fun x => q x.1) = reslotBinds (liftSlot n w) ((o1 ++ o2).filter (fun x => q x.1)) := by
    rw [List.filter_append, List.filter_append, List.filter_append,
      (List.filter_eq_nil_iff (l := ob) (p := fun x => q x.1)).2 (fun x hx => by simp [hb x hx]), List.append_nil]
    unfold reslotBinds at e1 ⊢
    rw [List.map_append, List.filter_map]
    congr 1
    exact (congrArg (List.filter (fun x : Str × SlotInfo => q x.1)) e1).symm.trans (List.filter_map ..)
  rw [e3]
  rw [show (Dict.update (List.filter (fun x : Str × SlotInfo => q x.1) []) (reslotBinds (liftSlot n w) _)) = reslotBinds (liftSlot n w) (Dict.update [] _) from update_reslot _ []]
  unfold reslotBinds SlotInfo.reslot
  rw [List.map_map, List.map_map]
  rfl

theorem keep_symbols {V : Type} (q : Str → Bool) (v : Slot → Option V) : ∀ l : List (Str × Slot),
    (l.filterMap (fun x => (v x.2).map (fun w => (x.1, w)))).filter (fun x => q x.1) =
      (l.filter (fun x => q x.1)).filterMap (fun x => (v x.2).map (fun w => (x.1, w)))
  | [] => rfl
  | (k, s) :: l => by
    have ih := keep_symbols q v l
    simp only [List.filterMap_cons, List.filter_cons]
    cases hv : v s with
    | none =>
      simp only [Option.map_none]
      rw [ih]
      split
      · simp only [List.filterMap_cons, hv, Option.map_none]
      · rfl
    | some w =>
      simp only [Option.map_some, List.filter_cons]
      rw [ih]
      split
      · simp only [List.filterMap_cons, hv, Option.map_some]
      · rfl

theorem envAt_fuel (ops : PyOps P X W) (Γ : DefId → DefInfo P) : ∀ k, (envAt ops Γ k).fuel = k
  | 0 => rfl
  | _ + 1 => rfl

/-- Without the statement the same faults are found, the same nodes are made, and the same other symbols are exported. -/
theorem passed_document (hg : ∀ x ∈ g, validSymbol x.1 = true) {m : Str} {mo : Option Modifier} {s : Stmt P} {K : Prop} {L : Nat} (hs : s.Passes L src K) {q : Str → Bool}
    (hm : Stmt.MadeDocument mk U (ss1 ++ .xblock m mo s :: ss2)) (hq : ∀ y ∈ s.defines src, q y = false)
    (hu : Stmt.onlyNamesAll src (fun y => q y = true) ss2) (hx : K ∨ Stmt.noContextAll ss2) (first : Slot) {doc0 : Document P}
    (h0 : analyseDocument src first g (ss1 ++ [.xblock m mo s]) = .ok doc0) :
    (∀ e, analyseDocument src first g (ss1 ++ .xblock m mo s :: ss2) = .error e ↔
      analyseDocument src first g (ss1 ++ blankLines m ++ ss2) = .error e) ∧
    ∀ doc, analyseDocument src first g (ss1 ++ .xblock m mo s :: ss2) = .ok doc →
      ∃ doc', analyseDocument src first g (ss1 ++ blankLines m ++ ss2) = .ok doc' ∧
        ∀ (ops : PyOps P X W) (Γ : DefId → DefInfo P), Enrolled Γ doc → (∀ i, i ∉ (Stmt.defsAll doc.children).map Prod.fst → (Γ i).below first) →
          ∃ Γ' : DefId → DefInfo P, Enrolled Γ' doc' ∧ (∀ i, i ∉ (Stmt.defsAll doc.children).map Prod.fst → Γ' i = Γ i) ∧
            ∀ (k : Nat) (σ : StateId) (M : Machine P W), L ≤ k → M.FreshFrom first →
              keepSymbols q (translDocument (envAt ops Γ' k) σ doc' M).1 = keepSymbols q (translDocument (envAt ops Γ k) σ doc M).1 ∧
              (translDocument (envAt ops Γ' k) σ doc' M).2.mem = (translDocument (envAt ops Γ k) σ doc M).2.mem := by
  have ht : Stmt.tailsAll Stmt.bare (ss1 ++ .xblock m mo s :: ss2) := Stmt.MadeAll.tailsOf (fun _ h => h.bare) hm.2
  rcases passed_out hg hs ht hq hu hx first h0 with ⟨e, k1, k2⟩ | ⟨n, w, a, s', c, o1, ob, o2, hL, k1, k2⟩
  · rw [k1, k2]
    exact ⟨fun _ => Iff.rfl, fun doc h => by cases h⟩
  rw [k1, k2]
  refine ⟨fun e => by simp, fun doc h => ?_⟩
  cases h
  refine ⟨_, rfl, fun ops Γ hΓ hother => ?_⟩
  have hn : first ≤ n := Nat.le_trans (Nat.le_add_right _ _) hL.low
  have hone : Holds n (liftSlot n w) := fun s hs => lift_low hs
  have hone' : Holds n (lowerSlot n w) := fun s hs => if_pos hs
  have hback : (fun s : Slot => lowerSlot n w (liftSlot n w s)) = id := funext (lower_lift n w)
  have hdefs1 : ∀ h : Slot → Slot, Holds n h → ∀ x ∈ Stmt.defsAll a, x.2.reslot h = x.2 := by
    intro h hh x hx
    have := Stmt.defsAll_reslot h a
    rw [hL.one.fix _ hh] at this
    exact congrArg Prod.snd (fix_of_map this.symm x hx)
  have hdefs : ∀ x, x ∈ Stmt.defsAll (a ++ [.xblock m mo s'] ++ Stmt.reslotAll (liftSlot n w) c) ↔
      x ∈ Stmt.defsAll a ∨ ∃ y ∈ Stmt.defsAll c, x = (y.1, y.2.reslot (liftSlot n w)) := by
    intro x
    rw [defsAll_both, defsAll_both, Stmt.defsAll_reslot]
    simp only [Stmt.defsAll, Stmt.defs, hL.defs, List.append_nil, List.mem_append, List.mem_map]
    exact or_congr Iff.rfl ⟨fun ⟨y, h, e⟩ => ⟨y, h, e.symm⟩, fun ⟨y, h, e⟩ => ⟨y, h, e.symm⟩⟩
  refine ⟨fun i => (Γ i).reslot (lowerSlot n w), ?_, fun i hi => hother i hi _ (hone'.le hn), fun k σ M hk hM => ?_⟩
  · intro x hx
    have hx : x ∈ Stmt.defsAll (a ++ blankLines m ++ c) := hx
    rw [defsAll_both, defsAll_both, defs_blankLines, List.append_nil] at hx
    rcases List.mem_append.1 hx with hx | hx
    · have := hΓ x ((hdefs x).2 (.inl hx))
      show (Γ x.1).reslot _ = x.2
      rw [this]
      exact hdefs1 _ hone' x hx
    · have := hΓ (x.1, x.2.reslot (liftSlot n w)) ((hdefs _).2 (.inr ⟨x, hx, rfl⟩))
      show (Γ x.1).reslot _ = x.2
      rw [show Γ x.1 = x.2.reslot (liftSlot n w) from this, DefInfo.reslot_twice, hback]
      exact DefInfo.reslot_same _
  have hround : ∀ i, Γ i = ((Γ i).reslot (lowerSlot n w)).reslot (liftSlot n w) := by
    intro i
    rw [DefInfo.reslot_twice]
    have hlow : Holds n (fun s : Slot => liftSlot n w (lowerSlot n w s)) := fun s hs => by
      show liftSlot n w (lowerSlot n w s) = s
      rw [hone' s hs, hone s hs]
    by_cases hi : i ∈ (Stmt.defsAll (a ++ [.xblock m mo s'] ++ Stmt.reslotAll (liftSlot n w) c)).map Prod.fst
    · obtain ⟨x, hx, rfl⟩ := List.mem_map.1 hi
      rw [hΓ x hx]
      rcases (hdefs x).1 hx with hx | ⟨y, hy, rfl⟩
      · exact (hdefs1 _ hlow x hx).symm
      · show y.2.reslot _ = (y.2.reslot _).reslot _
        rw [DefInfo.reslot_twice]
        congr 1
        funext s
        rw [lower_lift]
    · exact (hother i hi _ (hlow.le hn)).symm
  have own := lift_own_all n w
  have hE : SimEnv (liftSlot n w) (envAt ops (fun i => (Γ i).reslot (lowerSlot n w)) k) (envAt ops Γ k) :=
    envAt_sim ops (fun i => ⟨DefInfo.writes_mono (fun o _ => own o) (DefInfo.writes_any _), hround i⟩) k
  let core (E : Env P X W) (ss : List (Stmt P)) : Comp P X W Ref := do
    setSlots σ (fills first g)
    let ns ← translAll E σ ss
    let root ← newNode .root ns (some ['\n']) .none .none .none
    let n ← readNode root
    writeNode root { n with indent := some [] }
    return root
  have hcore : ∀ (E : Env P X W) (ss : List (Stmt P)) (out : List (Str × Slot)), translDocument E σ ⟨fills first g, ss, out⟩ =
      (core E ss >>= fun root => readSymbols σ out >>= fun symbols => Pure.pure (root, symbols)) := fun E ss out => by
    unfold translDocument
    simp only [core, Comp.bind_assoc, Comp.pure_bind]
  have hsim : Sim (liftSlot n w) (core (envAt ops (fun i => (Γ i).reslot (lowerSlot n w)) k) (a ++ blankLines m ++ c))
      (core (envAt ops Γ k) (a ++ [.xblock m mo s'] ++ Stmt.reslotAll (liftSlot n w) c)) := by
    refine Sim.bind ?_ (fun _ => Sim.bind ?_ (fun ns => Sim.bind (newNode_sim hE _ _ _ _ _ _) (fun r => Sim.bind (Sim.readNode r) (fun x =>
      Sim.bind (Sim.writeNode r _) (fun _ => Sim.pure _)))))
    · have := setSlots_sim (X := X) (W := W) (f := liftSlot n w) σ (fills first g) (fun _ _ => own _)
      rw [map_fix (fun x hx => by rw [lift_low (Nat.lt_of_lt_of_le (fills_slot _ _ x hx).2 hL.low)])] at this
      exact this
    · rw [List.append_assoc, List.append_assoc, translAll_append, translAll_blank, translAll_append, List.singleton_append]
      have h1 := translAll_sim hE σ a (Stmt.writesAll_mono (fun o _ => own o) _ (Stmt.writesAll_any _))
      rw [hL.one.fix _ hone] at h1
      refine Sim.bind h1 (fun x => Sim.bind ?_ (fun _ => Sim.pure _))
      have h2 := Sim.bind (hL.aside X W _ _ _ ((envAt_fuel ops _ k).symm ▸ hk : L ≤ _) hE (lift_outside n w) σ m mo)
        (fun x => Sim.bind (translAll_sim hE σ c (Stmt.writesAll_mono (fun o _ => own o) _ (Stmt.writesAll_any _))) (fun y => Sim.pure (x ++ y)))
      simp only [translAll]
      simp only [Comp.bind_assoc, Comp.pure_bind] at h2
      exact h2
  have hcorr : Machine.Corr (liftSlot n w) M M := by
    refine ⟨rfl, fun _ => rfl, fun τ s => ?_⟩
    by_cases h : s < n
    · rw [hone s h]
    · have e : liftSlot n w s = s + w := if_neg h
      have hs : first ≤ s := Nat.le_trans hn (Nat.not_lt.1 h)
      rw [hM τ s hs, e, hM τ _ (Nat.le_trans hs (Nat.le_add_right _ _))]
  rw [hcore, hcore, Comp.bind_run, Comp.bind_run]
  obtain ⟨r1, r2⟩ := hsim M M hcorr
  generalize core (envAt ops (fun i => (Γ i).reslot (lowerSlot n w)) k) (a ++ blankLines m ++ c) M = x at r1 r2 ⊢
  generalize core (envAt ops Γ k) (a ++ [.xblock m mo s'] ++ Stmt.reslotAll (liftSlot n w) c) M = y at r1 r2 ⊢
  obtain ⟨r, M1⟩ := x
  obtain ⟨r', M2⟩ := y
  have r1 : r = r' := r1
  subst r1
  cases r with
  | raise e => exact ⟨rfl, r2.mem⟩
  | timeout => exact ⟨rfl, r2.mem⟩
  | ok root =>
    simp only [Comp.next, Comp.bind_run, readSymbols_run]
    refine ⟨?_, r2.mem⟩
    show Res.ok (root, _) = Res.ok (root, _)
    congr 2
    rw [keep_symbols, keep_symbols, exports_kept hL.bound hL.outs1, List.filterMap_map]
    congr 1
    funext x
    show _ = ((M2.states σ).values (liftSlot n w x.2)).map _
    rw [r2.val]

theorem imports_pass (src : Source P I) (b : Bool) (path : Option Str) (is : List (ImportItem P)) : (Stmt.imports b path is).Passes 0 src (b = true) := by
  intro c s' c' h _
  obtain ⟨is', rfl, -, h2, hp⟩ := analyse_imports h
  exact ⟨by simp only [Stmt.defs], hp, fun X W f E E' _ hE hf σ m mo => imports_silent hE hf σ m mo b path is' h2⟩

/-- Imports between blocks of a script, of symbols or of all public symbols of a module, none of which is mentioned below; `q` tells the other symbols.
They may also come from the context (`b`). Without the line -- only the blank lines above it stay -- the same faults are found; when there is none, the same nodes are made, with the same
contents, or the same exception is raised, whatever python does, and the same other symbols are exported with the same values. -/
theorem C126_document (hg : ∀ x ∈ g, validSymbol x.1 = true) {m : Str} {mo : Option Modifier} {b : Bool} {path : Option Str} {is : List (ImportItem P)} {q : Str → Bool}
    (hm : Stmt.MadeDocument mk U (ss1 ++ .xblock m mo (.imports b path is) :: ss2)) (hq : ∀ i ∈ is, ∀ y ∈ i.defines src path, q y = false)
    (hu : Stmt.onlyNamesAll src (fun y => q y = true) ss2) (hx : b = true ∨ Stmt.noContextAll ss2) (first : Slot) {doc0 : Document P}
    (h0 : analyseDocument src first g (ss1 ++ [.xblock m mo (.imports b path is)]) = .ok doc0) :
    (∀ e, analyseDocument src first g (ss1 ++ .xblock m mo (.imports b path is) :: ss2) = .error e ↔
      analyseDocument src first g (ss1 ++ blankLines m ++ ss2) = .error e) ∧
    ∀ doc, analyseDocument src first g (ss1 ++ .xblock m mo (.imports b path is) :: ss2) = .ok doc →
      ∃ doc', analyseDocument src first g (ss1 ++ blankLines m ++ ss2) = .ok doc' ∧
        ∀ (ops : PyOps P X W) (Γ : DefId → DefInfo P), Enrolled Γ doc → (∀ i, i ∉ (Stmt.defsAll doc.children).map Prod.fst → (Γ i).below first) →
          ∃ Γ' : DefId → DefInfo P, Enrolled Γ' doc' ∧ (∀ i, i ∉ (Stmt.defsAll doc.children).map Prod.fst → Γ' i = Γ i) ∧
            ∀ (k : Nat) (σ : StateId) (M : Machine P W), M.FreshFrom first →
              keepSymbols q (translDocument (envAt ops Γ' k) σ doc' M).1 = keepSymbols q (translDocument (envAt ops Γ k) σ doc M).1 ∧
              (translDocument (envAt ops Γ' k) σ doc' M).2.mem = (translDocument (envAt ops Γ k) σ doc M).2.mem := by
  have h := passed_document (X := X) (W := W) hg (imports_pass src b path is) hm (fun y hy => by
    simp only [Stmt.defines, List.mem_flatMap] at hy
    obtain ⟨i, hi, hy⟩ := hy
    exact hq i hi _ hy) hu hx first h0
  simpa only [Nat.zero_le, true_implies] using h

end
end

/-! #### Examples -/

namespace UnusedImportEx
open MentionsEx IndependentEx

/-- A module with two public symbols, and a context. -/
def library : Source Toy.Obj Unit :=
  ⟨fun p => if p = some (s!!"lib") then .ok ([(s!!"$a", .str (s!!"A")), (s!!"$_c", .str (s!!"C")), (s!!"%b", .py (.tag 0))], 7) else .error (), [(s!!"$k", .str (s!!"K")), (s!!"$l", .str (s!!"L"))]⟩

/-- From the text of a script to the text of the document, with the module above. -/
def written (script : Str) : Option Str :=
  match loadScript defaultMarks asciiUni (fun _ => none) script with
  | .ok ss =>
    match analyseDocument library 0 builtins ss with
    | .ok doc =>
      let Γ : DefId → DefInfo Toy.Obj := fun id => (((Stmt.defsAll doc.children).find? (fun d => d.1 == id)).map Prod.snd).getD ⟨none, [], .pass⟩
      match translDocument (envAt exPyEnv.ops Γ 9) 0 doc (Toy.machine []) with
      | (.ok (root, _), M) => if exShallow M.mem 9 root then (renderNode (fun _ _ _ _ => .ok []) (exUnfold M.mem 9 root)).toOption else none
      | _ => none
    | .error _ => none
  | .error _ => none

-- imports that are not used, above and between blocks
example : (written (s!!"from lib import *\n\n| a\nfrom lib import $a as q, %b as c\n%H t\n    p | {t}-{x}\n$v = x\n| $v\nH 'b'")).isSome = true ∧
    written (s!!"from lib import *\n\n| a\nfrom lib import $a as q, %b as c\n%H t\n    p | {t}-{x}\n$v = x\n| $v\nH 'b'") =
      written (s!!"\n| a\n%H t\n    p | {t}-{x}\n$v = x\n| $v\nH 'b'") := by decide +kernel

-- ... and those that are
example : written (s!!"from lib import $a as x\n| $x") = some (s!!"A") ∧ written (s!!"| $x") ≠ some (s!!"A") := by decide +kernel

-- symbols of the context, with another one below
example : written (s!!"context $k\ncontext $l as x\n| $x") = some (s!!"L") ∧ written (s!!"context $l as x\n| $x") = some (s!!"L") ∧
    written (s!!"context $l as x\n| $x") ≠ written (s!!"| $x") := by decide +kernel

-- a context block is not allowed below an import, but this is a fault of that block
example : written (s!!"from lib import *\ncontext $l\n| $l") = none ∧ written (s!!"context $l\n| $l") = some (s!!"L") := by decide +kernel

-- a module that is missing is a fault, used or not
example : written (s!!"from bil import *\n| a") = none ∧ (written (s!!"| a")).isSome = true := by decide +kernel

/-- `from lib import *, $a as q`. -/
def items : List (ImportItem Toy.Obj) := [.wild none, .name (s!!"$a") (some (s!!"q")) none]

/-- The symbols that are not imported. -/
def others (y : Str) : Bool := !([s!!"$a", s!!"%b", s!!"$q"].contains y)

theorem made_all : Stmt.MadeDocument defaultMarks asciiUni (before ++ .xblock (s!!"\n") none (.imports false (some (s!!"lib")) items) :: parsed) := by
  have hx : Ident (s!!"x") := ⟨'x', [], rfl, by decide +kernel, by simp⟩
  have hy : Ident (s!!"y") := ⟨'y', [], rfl, by decide +kernel, by simp⟩
  have hz : Ident (s!!"z") := ⟨'z', [], rfl, by decide +kernel, by simp⟩
  have hq : Ident (s!!"q") := ⟨'q', [], rfl, by decide +kernel, by simp⟩
  have ha : MarkedName (s!!"$a") := ⟨'$', s!!"a", rfl, by simp, ⟨'a', [], rfl, by decide +kernel, by simp⟩⟩
  refine ⟨⟨before ++ .xblock (s!!"\n") none (.imports false (some (s!!"lib")) items) :: parsed, [], (List.append_nil _).symm, WellNested.one (by rfl)
    (WellNested.one (by rfl) (WellNested.one (by rfl) (WellNested.one (by rfl) .nil))), by simp, by simp⟩, ?_⟩
  simp [before, items, parsed, Stmt.MadeAll, Stmt.Made, Stmt.role, Newlines, Target.Made, Target.MadeAll, Expr.Made, ImportItem.Made, hx, hy, hz, hq, ha]

-- the theorem applies: without the imports there is no fault, and slots are numbered otherwise
example : ∃ doc', analyseDocument library 0 builtins (before ++ blankLines (s!!"\n") ++ parsed) = .ok doc' ∧ doc'.slotsOut = [(s!!"$z", 3), (s!!"$y", 4)] := by
  obtain ⟨_, h⟩ := C126_document (X := Str) (W := Unit) (src := library) (g := builtins) (q := others) (by decide +kernel) made_all (by decide +kernel)
    (by simp only [parsed, Stmt.onlyNamesAll, Stmt.onlyNames, Target.onlyNames, Target.onlyNamesAll, Expr.uses]; decide +kernel)
    (.inr (by simp [parsed, Stmt.noContextAll, Stmt.noContext])) 0 (doc0 := ⟨fills 0 builtins, _, [(s!!"$z", 3), (s!!"$a", 4), (s!!"%b", 5), (s!!"$q", 6)]⟩) rfl
  obtain ⟨doc', a, _⟩ := h _ rfl
  exact ⟨doc', a, by cases a; rfl⟩

example : (analyseDocument library 0 builtins (before ++ .xblock (s!!"\n") none (.imports false (some (s!!"lib")) items) :: parsed)).toOption.map
    Document.slotsOut = some [(s!!"$z", 3), (s!!"$a", 4), (s!!"%b", 5), (s!!"$q", 6), (s!!"$y", 7)] := by decide +kernel

end UnusedImportEx
end Verif
