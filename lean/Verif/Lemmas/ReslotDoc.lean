import Verif.Lemmas.ReslotMade
import Verif.Lemmas.ReslotStmt
import Verif.Lemmas.ReslotTransl
import Verif.Lemmas.Shows
import Verif.Lemmas.Pages

/-! Documents with other slots. -/

set_option linter.unusedSectionVars false

namespace Verif
open Py Spec

section
variable {P X W I : Type}

/-! ### Slots that a change of slots leaves as they are -/

section
variable {h : Slot → Slot} {q : Option Slot → Prop}

mutual
theorem Target.writes_fix : ∀ t : Target, t.writes q → t.reslot h = t → t.writes (fun o => q o ∧ o.map h = o)
  | .var _ _ _ _, w, e => by
    simp only [Target.writes, Target.reslot, Target.var.injEq] at *; exact ⟨w, e.2.2.2⟩
  | .many ts, w, e => by
    simp only [Target.writes, Target.reslot, Target.many.injEq] at *; exact Target.writesAll_fix ts w e
theorem Target.writesAll_fix : ∀ ts : List Target, Target.writesAll q ts → Target.reslotAll h ts = ts → Target.writesAll (fun o => q o ∧ o.map h = o) ts
  | [], _, _ => by simp only [Target.writesAll]
  | t :: ts, w, e => by
    simp only [Target.writesAll, Target.reslotAll, List.cons.injEq] at *
    exact ⟨t.writes_fix w.1 e.1, Target.writesAll_fix ts w.2 e.2⟩
end

theorem fix_of_map {α : Type} {g : α → α} {l : List α} (e : l.map g = l) : ∀ x ∈ l, g x = x := by
  induction l with
  | nil => simp
  | cons a l ih =>
    rw [List.map_cons, List.cons.injEq] at e
    intro x hx
    rcases List.mem_cons.1 hx with rfl | hx
    · exact e.1
    · exact ih e.2 x hx

theorem ImportItem.writes_fix (i : ImportItem P) (w : i.writes q) (e : i.reslot h = i) : i.writes (fun o => q o ∧ o.map h = o) := by
  cases i with
  | wild slots =>
    simp only [ImportItem.writes, ImportItem.reslot, ImportItem.wild.injEq] at *
    intro o ho
    refine ⟨w o ho, ?_⟩
    cases slots with
    | none => simp only [wildSlots, List.mem_singleton] at ho; rw [ho]; rfl
    | some l =>
      simp only [wildSlots, List.mem_map] at ho
      obtain ⟨x, hx, rfl⟩ := ho
      have := fix_of_map (Option.some.inj e) x hx
      rw [Option.map_some, show h x.1 = x.1 from congrArg Prod.fst this]
  | name sym ren slot =>
    simp only [ImportItem.writes, ImportItem.reslot, ImportItem.name.injEq] at *
    refine ⟨w, ?_⟩
    cases slot with
    | none => rfl
    | some x => exact congrArg (Option.map Prod.fst) e.2.2
  | cntx sym ren slot =>
    simp only [ImportItem.writes, ImportItem.reslot, ImportItem.cntx.injEq] at *
    refine ⟨w, ?_⟩
    cases slot with
    | none => rfl
    | some x => exact congrArg (Option.map Prod.fst) e.2.2

mutual
theorem Stmt.writes_fix : ∀ s : Stmt P, s.writes q → s.reslot h = s → s.writes (fun o => q o ∧ o.map h = o)
  | .xblock _ _ b, w, e => by simp only [Stmt.writes, Stmt.reslot, Stmt.xblock.injEq] at *; exact b.writes_fix w e.2.2
  | .struct _ b, w, e => by simp only [Stmt.writes, Stmt.reslot, Stmt.struct.injEq] at *; exact b.writes_fix w e.2
  | .defn _ _ _ _ _ _, w, e => by simp only [Stmt.writes, Stmt.reslot, Stmt.defn.injEq] at *; exact ⟨w, e.2.2.1⟩
  | .imports _ _ items, w, e => by
    simp only [Stmt.writes, Stmt.reslot, Stmt.imports.injEq] at *
    exact fun i hi => i.writes_fix (w i hi) (fix_of_map e.2.2 i hi)
  | .tryBlock bs, w, e => by simp only [Stmt.writes, Stmt.reslot, Stmt.tryBlock.injEq] at *; exact Stmt.writesAll_fix bs w e
  | .ifBlock cs els, w, e => by
    simp only [Stmt.writes, Stmt.reslot, Stmt.ifBlock.injEq] at *; exact ⟨Stmt.writesClauses_fix cs w.1 e.1, Stmt.writesOpt_fix els w.2 e.2⟩
  | .elseClause b, w, e => by simp only [Stmt.writes, Stmt.reslot, Stmt.elseClause.injEq] at *; exact Stmt.writesOpt_fix b w e
  | .whileBlock _ b els, w, e => by
    simp only [Stmt.writes, Stmt.reslot, Stmt.whileBlock.injEq] at *; exact ⟨Stmt.writesOpt_fix b w.1 e.2.1, Stmt.writesOpt_fix els w.2 e.2.2⟩
  | .forBlock t _ rest, w, e => by
    simp only [Stmt.writes, Stmt.reslot, Stmt.forBlock.injEq] at *; exact ⟨t.writes_fix w.1 e.1, Stmt.writesAll_fix rest w.2 e.2.2⟩
  | .assign t _ _, w, e => by simp only [Stmt.writes, Stmt.reslot, Stmt.assign.injEq] at *; exact t.writes_fix w e.1
  | .body ss, w, e => by simp only [Stmt.writes, Stmt.reslot, Stmt.body.injEq] at *; exact Stmt.writesAll_fix ss w e
  | .indent _, _, _ => by simp only [Stmt.writes]
  | .dedent _, _, _ => by simp only [Stmt.writes]
  | .static _, _, _ => by simp only [Stmt.writes]
  | .line _, _, _ => by simp only [Stmt.writes]
  | .text _ _, _, _ => by simp only [Stmt.writes]
  | .comment, _, _ => by simp only [Stmt.writes]
  | .embed _, _, _ => by simp only [Stmt.writes]
  | .exprBlock _, _, _ => by simp only [Stmt.writes]
  | .pass, _, _ => by simp only [Stmt.writes]
theorem Stmt.writesAll_fix : ∀ ss : List (Stmt P), Stmt.writesAll q ss → Stmt.reslotAll h ss = ss → Stmt.writesAll (fun o => q o ∧ o.map h = o) ss
  | [], _, _ => by simp only [Stmt.writesAll]
  | s :: ss, w, e => by
    simp only [Stmt.writesAll, Stmt.reslotAll, List.cons.injEq] at *; exact ⟨s.writes_fix w.1 e.1, Stmt.writesAll_fix ss w.2 e.2⟩
theorem Stmt.writesOpt_fix : ∀ o : Option (Stmt P), Stmt.writesOpt q o → Stmt.reslotOpt h o = o → Stmt.writesOpt (fun o => q o ∧ o.map h = o) o
  | none, _, _ => by simp only [Stmt.writesOpt]
  | some s, w, e => by simp only [Stmt.writesOpt, Stmt.reslotOpt, Option.some.injEq] at *; exact s.writes_fix w e
theorem Stmt.writesClause_fix : ∀ c : Expr × Option (Stmt P), Stmt.writesClause q c → Stmt.reslotClause h c = c →
    Stmt.writesClause (fun o => q o ∧ o.map h = o) c
  | (_, b), w, e => by simp only [Stmt.writesClause, Stmt.reslotClause, Prod.mk.injEq] at *; exact Stmt.writesOpt_fix b w e.2
theorem Stmt.writesClauses_fix : ∀ cs : List (Expr × Option (Stmt P)), Stmt.writesClauses q cs → Stmt.reslotClauses h cs = cs →
    Stmt.writesClauses (fun o => q o ∧ o.map h = o) cs
  | [], _, _ => by simp only [Stmt.writesClauses]
  | c :: cs, w, e => by
    simp only [Stmt.writesClauses, Stmt.reslotClauses, List.cons.injEq] at *
    exact ⟨Stmt.writesClause_fix c w.1 e.1, Stmt.writesClauses_fix cs w.2 e.2⟩
end

theorem DefInfo.writes_fix (d : DefInfo P) (w : d.writes q) (e : d.reslot h = d) : d.writes (fun o => q o ∧ o.map h = o) := by
  obtain ⟨ba, as, b⟩ := d
  simp only [DefInfo.reslot, DefInfo.mk.injEq] at e
  refine ⟨fun a ha => ⟨w.1 a ha, ?_⟩, fun a ha => ⟨w.2.1 a ha, ?_⟩, b.writes_fix w.2.2 e.2.2⟩
  · have ha : ba = some a := ha
    rw [ha] at e
    exact congrArg AttrDef.slot (Option.some.inj e.1)
  · exact congrArg AttrDef.slot (fix_of_map e.2.1 a ha)

end

/-- A change of slots that leaves exactly those below `m` as they are. -/
def pushUp (m : Slot) (s : Slot) : Slot := if s < m then s else s + 1

theorem pushUp_holds (m : Slot) : Holds m (pushUp m) := fun n h => by simp only [pushUp, if_pos h]

theorem pushUp_below {m : Slot} {o : Option Slot} (h : o.map (pushUp m) = o) : ∀ sl, o = some sl → sl < m := by
  rintro sl rfl
  by_cases hs : sl < m
  · exact hs
  · simp only [Option.map_some, pushUp, if_neg hs, Option.some.injEq] at h
    exact absurd h (Nat.succ_ne_self sl)

/-- Slots from `n0` on, below `m`. -/
def Amid (n0 m : Slot) (o : Option Slot) : Prop := ∀ sl, o = some sl → n0 ≤ sl ∧ sl < m

theorem NeatAll.amid {n0 m : Slot} {ss : List (Stmt P)} (h : NeatAll n0 m ss) :
    Stmt.writesAll (Amid n0 m) ss ∧ ∀ d ∈ Stmt.defsAll ss, d.2.writes (Amid n0 m) := by
  have e := h.fix _ (pushUp_holds m)
  have mono : ∀ o, (Late n0 o ∧ o.map (pushUp m) = o) → Amid n0 m o := fun o h sl e => ⟨h.1 sl e, pushUp_below h.2 sl e⟩
  refine ⟨Stmt.writesAll_mono mono _ (Stmt.writesAll_fix ss h.writes e), fun d hd => ?_⟩
  have e' := Stmt.defsAll_reslot (pushUp m) ss
  rw [e] at e'
  have := fix_of_map e'.symm d hd
  exact DefInfo.writes_mono mono (DefInfo.writes_fix d.2 (h.defs d hd) (congrArg Prod.snd this))

theorem DefInfo.below_writes {m : Slot} {d : DefInfo P} (h : d.below m) (w : d.writes (fun _ => True)) : d.writes (Amid 0 m) :=
  DefInfo.writes_mono (fun _ h sl e => ⟨Nat.zero_le _, pushUp_below h.2 sl e⟩) (DefInfo.writes_fix d w (h _ (pushUp_holds m)))

/-! ### Builtins -/

/-- The slots of builtins. -/
def seats : Slot → List (Str × Val P) → List (Str × SlotInfo)
  | _, [] => []
  | n, x :: l => (x.1, { id := n, depth := 0 }) :: seats (n + 1) l

/-- Values of builtins, with their slots. -/
def fills : Slot → List (Str × Val P) → List (Slot × Val P)
  | _, [] => []
  | n, x :: l => (n, x.2) :: fills (n + 1) l

theorem valueSlots_exact (g : List (Str × Val P)) (hv : ∀ x ∈ g, validSymbol x.1 = true) : ∀ c : Ctx, c.regular = 0 →
    ∃ l, (valueSlots g c : Except (AErr I) _) = .ok (l, { c with binds := c.binds ++ seats c.next g, next := c.next + g.length }) ∧
      l.map Prod.snd = fills c.next g := by
  induction g with
  | nil => intro c _; exact ⟨[], by simp [valueSlots, seats]; rfl, rfl⟩
  | cons x g ih =>
    intro c h0
    obtain ⟨sym, v⟩ := x
    have hs : validSymbol sym = true := hv _ List.mem_cons_self
    obtain ⟨l, h1, h2⟩ := ih (fun x hx => hv x (List.mem_cons_of_mem _ hx))
      { c.push sym { id := c.next, depth := c.regular } with next := c.next + 1 } h0
    refine ⟨(sym, c.next, v) :: l, ?_, ?_⟩
    · simp only [valueSlots, newSlot, hs, if_true]
      show (valueSlots g _ >>= _) = _
      rw [h1]
      simp only [Ctx.push, List.append_assoc, List.length_cons, Nat.add_assoc, Nat.add_comm 1, seats, h0, List.singleton_append]
      rfl
    · rw [List.map_cons, h2]; rfl

theorem seats_names (g : List (Str × Val P)) : ∀ n, (seats n g).map Prod.fst = g.map Prod.fst := by
  induction g with
  | nil => intro n; rfl
  | cons x g ih => intro n; simp only [seats, List.map_cons, ih]

theorem seats_mem (g : List (Str × Val P)) : ∀ n, ∀ x ∈ seats n g, x.2.depth = 0 ∧ n ≤ x.2.id ∧ x.2.id < n + g.length := by
  induction g with
  | nil => intro n x hx; exact absurd hx List.not_mem_nil
  | cons y g ih =>
    intro n x hx
    simp only [seats, List.mem_cons] at hx
    rcases hx with rfl | hx
    · exact ⟨rfl, Nat.le_refl _, Nat.lt_add_of_pos_right (by simp)⟩
    · obtain ⟨h1, h2, h3⟩ := ih (n + 1) x hx
      refine ⟨h1, Nat.le_of_succ_le h2, ?_⟩
      rw [List.length_cons]
      have : x.2.id < n + 1 + g.length := h3
      exact Nat.lt_of_lt_of_eq this (by rw [Nat.add_assoc, Nat.add_comm 1])

theorem seats_reslot {f : Slot → Slot} (g : List (Str × Val P)) : ∀ n n', (∀ i, i < g.length → f (n + i) = n' + i) →
    seats n' g = reslotBinds f (seats n g) := by
  induction g with
  | nil => intro n n' _; rfl
  | cons x g ih =>
    intro n n' h
    simp only [seats, reslotBinds, List.map_cons, SlotInfo.reslot]
    have h0 : f n = n' := h 0 (by simp)
    rw [h0, ih (n + 1) (n' + 1) (fun i hi => by
      have := h (i + 1) (by simpa using hi)
      rw [show n + 1 + i = n + (i + 1) by rw [Nat.add_assoc, Nat.add_comm 1], this, Nat.add_assoc, Nat.add_comm 1])]
    rfl

theorem fills_slot (g : List (Str × Val P)) : ∀ n, ∀ x ∈ fills n g, n ≤ x.1 ∧ x.1 < n + g.length := by
  induction g with
  | nil => intro n x hx; exact absurd hx List.not_mem_nil
  | cons y g ih =>
    intro n x hx
    simp only [fills, List.mem_cons] at hx
    rcases hx with rfl | hx
    · exact ⟨Nat.le_refl _, Nat.lt_add_of_pos_right (by simp)⟩
    · obtain ⟨h2, h3⟩ := ih (n + 1) x hx
      refine ⟨Nat.le_of_succ_le h2, ?_⟩
      rw [List.length_cons]
      have : x.1 < n + 1 + g.length := h3
      exact Nat.lt_of_lt_of_eq this (by rw [Nat.add_assoc, Nat.add_comm 1])

/-- The machine after the builtins were put into their slots. -/
theorem setSlots_fills (σ : StateId) (g : List (Str × Val P)) : ∀ (n : Slot) (M : Machine P W),
    ∃ M', (setSlots σ (fills n g) M : Res X Unit × Machine P W) = (.ok (), M') ∧ M'.mem = M.mem ∧
      (∀ τ, (M'.states τ).indentation = (M.states τ).indentation) ∧
      (∀ τ s, s < n ∨ n + g.length ≤ s → (M'.states τ).values s = (M.states τ).values s) ∧
      ∀ τ i, i < g.length → (M'.states τ).values (n + i) = if τ = σ then g[i]?.map Prod.snd else (M.states τ).values (n + i) := by
  induction g with
  | nil => intro n M; exact ⟨M, rfl, rfl, fun _ => rfl, fun _ _ _ => rfl, fun _ i hi => absurd hi (by simp)⟩
  | cons x g ih =>
    intro n M
    obtain ⟨sym, v⟩ := x
    let M1 : Machine P W := M.updState σ (fun st => { st with values := fun s => if s = n then some v else st.values s })
    have e1 : (setSlot σ n v M : Res X Unit × Machine P W) = (.ok (), M1) := rfl
    obtain ⟨M', h1, h2, h3, h4, h5⟩ := ih (n + 1) M1
    have v1 : ∀ τ s, (M1.states τ).values s = if τ = σ ∧ s = n then some v else (M.states τ).values s := by
      intro τ s
      simp only [M1, Machine.updState]
      by_cases ht : τ = σ
      · simp only [ht, if_true, true_and]
      · simp only [ht, if_false, false_and]
    refine ⟨M', ?_, h2, ?_, ?_, ?_⟩
    · simp only [fills, setSlots]
      rw [Comp.bind_run, e1]
      exact h1
    · intro τ
      rw [h3]
      simp only [M1, Machine.updState]
      split <;> rfl
    · intro τ s hs
      have hs' : s < n + 1 ∨ n + 1 + g.length ≤ s := by
        rcases hs with h | h
        · exact .inl (Nat.lt_succ_of_lt h)
        · refine .inr ?_
          rw [List.length_cons] at h
          rw [Nat.add_assoc, Nat.add_comm 1]
          exact h
      rw [h4 τ s hs', v1, if_neg]
      rintro ⟨_, rfl⟩
      rcases hs with h | h
      · exact absurd h (Nat.lt_irrefl _)
      · exact absurd h (by rw [List.length_cons]; exact Nat.not_le_of_lt (Nat.lt_add_of_pos_right (Nat.succ_pos _)))
    · intro τ i hi
      cases i with
      | zero =>
        rw [Nat.add_zero, h4 τ n (.inl (Nat.lt_succ_self n)), v1]
        by_cases ht : τ = σ
        · simp [ht]
        · simp [ht]
      | succ i =>
        have := h5 τ i (by simpa using hi)
        have hne : ¬ (τ = σ ∧ n + 1 + i = n) := fun h => by
          have h2 : n + 1 + i = n := h.2
          rw [Nat.add_assoc] at h2
          exact absurd h2 (Nat.ne_of_gt (Nat.lt_add_of_pos_right (by rw [Nat.add_comm]; exact Nat.succ_pos i)))
        have hv := v1 τ (n + 1 + i)
        rw [if_neg hne] at hv
        rw [show n + (i + 1) = n + 1 + i by rw [Nat.add_assoc, Nat.add_comm 1], this, hv]
        simp only [List.getElem?_cons_succ]

/-! ### Exported symbols -/

theorem readSymbols_sim {f : Slot → Slot} (σ : StateId) (l : List (Str × Slot)) :
    Sim f (readSymbols σ l : Comp P X W _) (readSymbols σ (l.map (fun x => (x.1, f x.2)))) := by
  induction l with
  | nil => exact Sim.pure _
  | cons x l ih =>
    obtain ⟨sym, sl⟩ := x
    simp only [List.map_cons, readSymbols]
    refine (Sim.getSlot σ sl).bind (fun v => ih.bind (fun d => ?_))
    cases v <;> exact Sim.pure _

theorem set_apart {V : Type} (a d : Dict Str V) (k : Str) (v : V) (h : k ∉ a.map Prod.fst) : Dict.set (a ++ d) k v = a ++ Dict.set d k v := by
  induction a with
  | nil => rfl
  | cons x a ih =>
    obtain ⟨k', v'⟩ := x
    simp only [List.map_cons, List.mem_cons, not_or] at h
    simp only [List.cons_append, Dict.set]
    rw [if_neg (Ne.symm h.1), ih h.2]

theorem update_apart {V : Type} (l : List (Str × V)) : ∀ a d : Dict Str V, (∀ x ∈ l, x.1 ∉ a.map Prod.fst) →
    Dict.update (a ++ d) l = a ++ Dict.update d l := by
  induction l with
  | nil => intro a d _; rfl
  | cons x l ih =>
    intro a d h
    obtain ⟨k, v⟩ := x
    show Dict.update (Dict.set (a ++ d) k v) l = a ++ Dict.update (Dict.set d k v) l
    rw [set_apart a d k v (h (k, v) (by simp)), ih a _ (fun y hy => h y (by simp [hy]))]

end
end Verif
