import Verif.Lemmas.TransFrame

/-! Frame reasoning with relations between the machines before and after a computation. -/

set_option linter.unusedSectionVars false

namespace Verif
open Py

section
variable {P X W α β : Type}

/-- The machine before and after `c` are related, whatever the outcome. -/
def Keeps (R : Machine P W → Machine P W → Prop) (c : Comp P X W α) : Prop := ∀ M, R M (c M).2

/-- A relation that is respected by everything that does not write to states. -/
structure RelFrame (E : Env P X W) (R : Machine P W → Machine P W → Prop) : Prop where
  refl : ∀ M, R M M
  trans : ∀ {M1 M2 M3}, R M1 M2 → R M2 M3 → R M1 M3
  mem : ∀ (M : Machine P W) m, R M (M.withMem m)
  call : ∀ c, Keeps R (E.call c)

section
variable {E : Env P X W} {R : Machine P W → Machine P W → Prop} (F : RelFrame E R)
include F

theorem RelFrame.bind {c : Comp P X W α} {f : α → Comp P X W β} (hc : Keeps R c)
    (hf : ∀ a, Keeps R (f a)) : Keeps R (c >>= f) := by
  intro M
  rw [Comp.bind_run]
  have h := hc M
  rcases hcM : c M with ⟨r, M1⟩
  rw [hcM] at h
  cases r with
  | ok a => exact F.trans h (hf a M1)
  | raise e => exact h
  | timeout => exact h

theorem RelFrame.tryExcept {c h : Comp P X W α} (hc : Keeps R c) (hh : Keeps R h) :
    Keeps R (Comp.tryExcept c h) := by
  intro M
  have g := hc M
  simp only [Comp.tryExcept]
  rcases hcM : c M with ⟨r, M1⟩
  rw [hcM] at g
  cases r with
  | ok a => exact g
  | timeout => exact g
  | raise e =>
    simp only [Comp.handle]
    split
    · exact F.trans g (hh M1)
    · exact g

theorem RelFrame.runPy (c : PyM P X W α) : Keeps R (runPy E c) := by
  intro M
  have aux : ∀ (p : Proc P X W α) (st : StateId → TState P) (m : Mem P W),
      R ⟨st, m⟩ (runProc E.call p st).2 := by
    intro p
    induction p with
    | ret a m' => intro st m; exact F.mem ⟨st, m⟩ m'
    | raise e m' => intro st m; exact F.mem ⟨st, m⟩ m'
    | call cb m' k ih =>
      intro st m
      simp only [runProc]
      have h1 : R ⟨st, m⟩ ⟨st, m'⟩ := F.mem ⟨st, m⟩ m'
      have h2 := F.call cb ⟨st, m'⟩
      rcases hr : E.call cb ⟨st, m'⟩ with ⟨r, M2⟩
      rw [hr] at h2
      cases r with
      | ok v => exact F.trans (F.trans h1 h2) (ih _ _ _ _)
      | raise e => exact F.trans (F.trans h1 h2) (ih _ _ _ _)
      | timeout => exact F.trans h1 h2
  exact aux (c M.mem) M.states M.mem

theorem RelFrame.qual (q : Option Qual) {c : Comp P X W (Val P)} (hc : Keeps R c)
    (hq : ∀ v, Keeps R (qualCheck E q v)) : Keeps R (qualified E q c) := by
  intro M
  have h := hc M
  simp only [Verif.qualified]
  rcases hcM : c M with ⟨r, M1⟩
  rw [hcM] at h
  cases r with
  | ok v => exact F.trans h (hq v M1)
  | timeout => exact h
  | raise e =>
    simp only [qualStep]
    split
    · exact h
    · exact h

theorem RelFrame.closed : Closed E (fun _ c => Keeps R c) (fun _ _ => True) where
  pure _ M := F.refl M
  raise _ _ M := F.refl M
  unres _ M := F.refl M
  timeout M := F.refl M
  bind := F.bind
  tryExcept := F.tryExcept
  qual := F.qual
  py _ := F.runPy _
  call := F.call
  getSlot _ _ _ M := F.refl M
  curIndent _ M := F.refl M
  readNode _ M := F.refl M
  countNodes M := F.refl M
  writeNode _ _ M := F.mem M _
  allocNode _ M := F.mem M _

end

/-! ### Slots that satisfy a trivial condition -/

section
variable {q : Option Slot → Prop} (hq : ∀ o, q o)
include hq

mutual
theorem Expr.reads_of : ∀ e : Expr, e.reads q
  | .root _ e => by simp only [Expr.reads]; exact Expr.reads_of e
  | .tagUse _ _ => by simp only [Expr.reads]; exact hq _
  | .varUse _ _ => by simp only [Expr.reads]; exact hq _
  | .factor a ts _ => by simp only [Expr.reads]; exact ⟨Expr.reads_of a, Tail.readsAll_of ts⟩
  | .chain _ h _ es => by simp only [Expr.reads]; exact ⟨Expr.reads_of h, Expr.readsAll_of es⟩
  | .concat es => by simp only [Expr.reads]; exact Expr.readsAll_of es
  | .bits _ h es => by simp only [Expr.reads]; exact ⟨Expr.reads_of h, Expr.readsAll_of es⟩
  | .pipeline h es => by simp only [Expr.reads]; exact ⟨Expr.reads_of h, Expr.readsAll_of es⟩
  | .notTest _ e => by simp only [Expr.reads]; exact Expr.reads_of e
  | .andTest h es => by simp only [Expr.reads]; exact ⟨Expr.reads_of h, Expr.readsAll_of es⟩
  | .orTest h es => by simp only [Expr.reads]; exact ⟨Expr.reads_of h, Expr.readsAll_of es⟩
  | .ifElse x t y => by
    simp only [Expr.reads]; exact ⟨Expr.reads_of x, Expr.reads_of t, Expr.readsOpt_of y⟩
  | .list es => by simp only [Expr.reads]; exact Expr.readsAll_of es
  | .tuple es => by simp only [Expr.reads]; exact Expr.readsAll_of es
  | .set es => by simp only [Expr.reads]; exact Expr.readsAll_of es
  | .dict es => by simp only [Expr.reads]; exact Expr.readsAll_of es
  | .format es => by simp only [Expr.reads]; exact Expr.readsAll_of es
  | .static _ => by simp only [Expr.reads]
  | .strLit _ => by simp only [Expr.reads]
  | .number _ => by simp only [Expr.reads]
  | .boolean _ => by simp only [Expr.reads]
  | .noneLit => by simp only [Expr.reads]
  | .sliceNone => by simp only [Expr.reads]
theorem Expr.readsAll_of : ∀ es : List Expr, Expr.readsAll q es
  | [] => by simp only [Expr.readsAll]
  | e :: es => by simp only [Expr.readsAll]; exact ⟨Expr.reads_of e, Expr.readsAll_of es⟩
theorem Expr.readsOpt_of : ∀ o : Option Expr, Expr.readsOpt q o
  | .none => by simp only [Expr.readsOpt]
  | some e => by simp only [Expr.readsOpt]; exact Expr.reads_of e
theorem Tail.readsAll_of : ∀ ts : List Tail, Tail.readsAll q ts
  | [] => by simp only [Tail.readsAll]
  | t :: ts => by simp only [Tail.readsAll]; exact ⟨Tail.reads_of t, Tail.readsAll_of ts⟩
theorem Tail.reads_of : ∀ t : Tail, t.reads q
  | .call _ es => by simp only [Tail.reads]; exact Expr.readsAll_of es
  | .partialCall _ es => by simp only [Tail.reads]; exact Expr.readsAll_of es
  | .index es => by simp only [Tail.reads]; exact Expr.readsAll_of es
  | .member _ => by simp only [Tail.reads]
end

theorem Line.reads_of (l : Line) : l.reads q := by
  cases l with
  | verbat _ => trivial
  | normal ps => exact Expr.readsAll_of hq ps
  | markup ps => exact Expr.readsAll_of hq ps

theorem TextItem.reads_of (i : TextItem) : i.reads q := by
  cases i with
  | line l => exact Line.reads_of hq l
  | _ => trivial

theorem TagExp.reads_of (t : TagExp) : t.reads q := by
  cases t with
  | tag n s us ns =>
    exact ⟨Expr.readsAll_of hq us, fun n _ => Expr.reads_of hq n.2, hq _⟩
  | null => trivial

mutual
theorem Target.reads_of : ∀ t : Target, t.reads q
  | .var _ _ _ _ => by simp only [Target.reads]; exact fun _ => hq _
  | .many ts => by simp only [Target.reads]; exact Target.readsAll_of ts
theorem Target.readsAll_of : ∀ ts : List Target, Target.readsAll q ts
  | [] => by simp only [Target.readsAll]
  | t :: ts => by simp only [Target.readsAll]; exact ⟨Target.reads_of t, Target.readsAll_of ts⟩
end

mutual
theorem Stmt.reads_of : ∀ s : Stmt P, s.reads q
  | .static _ => by simp only [Stmt.reads]
  | .indent _ => by simp only [Stmt.reads]
  | .dedent _ => by simp only [Stmt.reads]
  | .line l => by simp only [Stmt.reads]; exact Line.reads_of hq l
  | .xblock _ _ b => by simp only [Stmt.reads]; exact Stmt.reads_of b
  | .text _ is => by simp only [Stmt.reads]; exact fun i _ => TextItem.reads_of hq i
  | .comment => by simp only [Stmt.reads]
  | .embed e => by simp only [Stmt.reads]; exact Expr.reads_of hq e
  | .struct ts b => by
    simp only [Stmt.reads]; exact ⟨fun t _ => TagExp.reads_of hq t, Stmt.reads_of b⟩
  | .defn _ _ _ _ _ _ => by simp only [Stmt.reads]
  | .imports _ _ _ => by simp only [Stmt.reads]
  | .tryBlock bs => by simp only [Stmt.reads]; exact Stmt.readsAll_of bs
  | .ifBlock cs els => by
    simp only [Stmt.reads]; exact ⟨Stmt.readsClauses_of cs, Stmt.readsOpt_of els⟩
  | .elseClause b => by simp only [Stmt.reads]; exact Stmt.readsOpt_of b
  | .whileBlock t b els => by
    simp only [Stmt.reads]; exact ⟨Expr.reads_of hq t, Stmt.readsOpt_of b, Stmt.readsOpt_of els⟩
  | .forBlock _ e rest => by
    simp only [Stmt.reads]; exact ⟨Expr.reads_of hq e, Stmt.readsAll_of rest⟩
  | .exprBlock e => by simp only [Stmt.reads]; exact Expr.reads_of hq e
  | .assign t _ e => by
    simp only [Stmt.reads]; exact ⟨Expr.reads_of hq e, Target.reads_of hq t⟩
  | .body ss => by simp only [Stmt.reads]; exact Stmt.readsAll_of ss
  | .pass => by simp only [Stmt.reads]
theorem Stmt.readsAll_of : ∀ ss : List (Stmt P), Stmt.readsAll q ss
  | [] => by simp only [Stmt.readsAll]
  | s :: ss => by simp only [Stmt.readsAll]; exact ⟨Stmt.reads_of s, Stmt.readsAll_of ss⟩
theorem Stmt.readsOpt_of : ∀ o : Option (Stmt P), Stmt.readsOpt q o
  | .none => by simp only [Stmt.readsOpt]
  | some s => by simp only [Stmt.readsOpt]; exact Stmt.reads_of s
theorem Stmt.readsClause_of : ∀ c : Expr × Option (Stmt P), Stmt.readsClause q c
  | (t, b) => by simp only [Stmt.readsClause]; exact ⟨Expr.reads_of hq t, Stmt.readsOpt_of b⟩
theorem Stmt.readsClauses_of : ∀ cs : List (Expr × Option (Stmt P)), Stmt.readsClauses q cs
  | [] => by simp only [Stmt.readsClauses]
  | c :: cs => by
    simp only [Stmt.readsClauses]; exact ⟨Stmt.readsClause_of c, Stmt.readsClauses_of cs⟩
end

theorem DefInfo.reads_of (d : DefInfo P) : d.reads q :=
  ⟨fun _ _ => Expr.readsOpt_of hq _, Stmt.reads_of hq _⟩

mutual
theorem Target.writes_of : ∀ t : Target, t.writes q
  | .var _ _ _ _ => by simp only [Target.writes]; exact hq _
  | .many ts => by simp only [Target.writes]; exact Target.writesAll_of ts
theorem Target.writesAll_of : ∀ ts : List Target, Target.writesAll q ts
  | [] => by simp only [Target.writesAll]
  | t :: ts => by simp only [Target.writesAll]; exact ⟨Target.writes_of t, Target.writesAll_of ts⟩
end

theorem ImportItem.writes_of (i : ImportItem P) : i.writes q := by
  cases i <;> simp only [ImportItem.writes] <;> intros <;> exact hq _

mutual
theorem Stmt.writes_of : ∀ s : Stmt P, s.writes q
  | .static _ => by simp only [Stmt.writes]
  | .indent _ => by simp only [Stmt.writes]
  | .dedent _ => by simp only [Stmt.writes]
  | .line _ => by simp only [Stmt.writes]
  | .xblock _ _ b => by simp only [Stmt.writes]; exact Stmt.writes_of b
  | .text _ _ => by simp only [Stmt.writes]
  | .comment => by simp only [Stmt.writes]
  | .embed _ => by simp only [Stmt.writes]
  | .struct _ b => by simp only [Stmt.writes]; exact Stmt.writes_of b
  | .defn _ _ slot _ _ _ => by simp only [Stmt.writes]; exact hq _
  | .imports _ _ items => by
    simp only [Stmt.writes]; exact fun i _ => ImportItem.writes_of hq i
  | .tryBlock bs => by simp only [Stmt.writes]; exact Stmt.writesAll_of bs
  | .ifBlock cs els => by
    simp only [Stmt.writes]; exact ⟨Stmt.writesClauses_of cs, Stmt.writesOpt_of els⟩
  | .elseClause b => by simp only [Stmt.writes]; exact Stmt.writesOpt_of b
  | .whileBlock _ b els => by
    simp only [Stmt.writes]; exact ⟨Stmt.writesOpt_of b, Stmt.writesOpt_of els⟩
  | .forBlock t _ rest => by
    simp only [Stmt.writes]; exact ⟨Target.writes_of hq t, Stmt.writesAll_of rest⟩
  | .exprBlock _ => by simp only [Stmt.writes]
  | .assign t _ _ => by simp only [Stmt.writes]; exact Target.writes_of hq t
  | .body ss => by simp only [Stmt.writes]; exact Stmt.writesAll_of ss
  | .pass => by simp only [Stmt.writes]
theorem Stmt.writesAll_of : ∀ ss : List (Stmt P), Stmt.writesAll q ss
  | [] => by simp only [Stmt.writesAll]
  | s :: ss => by
    simp only [Stmt.writesAll]; exact ⟨Stmt.writes_of s, Stmt.writesAll_of ss⟩
theorem Stmt.writesOpt_of : ∀ o : Option (Stmt P), Stmt.writesOpt q o
  | .none => by simp only [Stmt.writesOpt]
  | some s => by simp only [Stmt.writesOpt]; exact Stmt.writes_of s
theorem Stmt.writesClause_of : ∀ c : Expr × Option (Stmt P), Stmt.writesClause q c
  | (_, b) => by simp only [Stmt.writesClause]; exact Stmt.writesOpt_of b
theorem Stmt.writesClauses_of : ∀ cs : List (Expr × Option (Stmt P)), Stmt.writesClauses q cs
  | [] => by simp only [Stmt.writesClauses]
  | c :: cs => by
    simp only [Stmt.writesClauses]; exact ⟨Stmt.writesClause_of c, Stmt.writesClauses_of cs⟩
end

theorem DefInfo.writes_of (d : DefInfo P) : d.writes q :=
  ⟨fun _ _ => hq _, fun _ _ => hq _, Stmt.writes_of hq _⟩

end
end
end Verif
