import Verif.Lemmas.Unanalysed
import Verif.Lemmas.Unresolved
import Verif.Spec.Toy

/-! Properties of name analysis: C55, C56. -/

namespace Verif
open Py

section
variable {P X W I : Type}

/-! ### C55 Tagged blocks do not leak variables -/

/-- The slots of all states that satisfy `V` have the same values. -/
def SameValues (V : Slot → Prop) (M M' : Machine P W) : Prop :=
  ∀ τ sl, V sl → (M'.states τ).values sl = (M.states τ).values sl

structure EnvSame (V : Slot → Prop) (E : Env P X W) : Prop where
  expand : ∀ h b as kw σ, Keeps (SameValues V) (E.expand h b as kw σ)
  call : ∀ c, Keeps (SameValues V) (E.call c)

theorem EnvSame.frame {V : Slot → Prop} {E : Env P X W} (h : EnvSame V E) (σ : StateId) :
    TransFrame E (fun _ c => Keeps (SameValues V) c) σ (fun o => ∀ sl, V sl → o ≠ some sl) (fun _ _ => True) True where
  toClosed := RelFrame.closed
    { refl := fun _ _ _ _ => rfl
      trans := fun h1 h2 τ sl hv => (h2 τ sl hv).trans (h1 τ sl hv)
      mem := fun _ _ _ _ _ => rfl
      call := h.call }
  expand := fun hv b as kw => h.expand hv b as kw σ
  slot := by
    intro sl v hp M τ sl' hv
    have : sl' ≠ sl := fun e => hp sl' hv (by rw [e])
    by_cases hτ : τ = σ <;> simp [setSlot, Machine.updState, hτ, this]
  missing := fun _ => trivial
  ind := by
    intro _ s M τ sl _
    by_cases hτ : τ = σ <;> simp [putIndent, Machine.updState, hτ]
  keep := by
    intro α c hc M τ sl hv
    have := hc trivial M τ sl hv
    by_cases hτ : τ = σ <;> simpa [keepIndent, restoring, Machine.updState, hτ] using this

theorem envAt_same (V : Slot → Prop) (ops : PyOps P X W) (Γ : DefId → DefInfo P)
    (hΓ : ∀ id, (Γ id).writes (fun o => ∀ sl, V sl → o ≠ some sl)) (n : Nat) :
    EnvSame V (envAt ops Γ n) := by
  induction n with
  | zero => exact ⟨fun _ _ _ _ _ _ _ _ _ => rfl, fun _ _ _ _ _ => rfl⟩
  | succ n ih =>
    refine ⟨fun hv b as kw σ => ?_, fun c => ?_⟩
    · show Keeps (SameValues V) (expandHyper (envAt ops Γ n) Γ hv b as kw σ)
      induction hv generalizing σ with
      | imported hv st ih' => exact ih' st
      | defn id =>
        exact (ih.frame σ).expandDef id _
          (DefInfo.reads_of (q := fun _ => True) (fun _ => trivial) (Γ id)) (hΓ id)
          (fun h => (h trivial).elim) b as kw
    · have F := (ih.frame c.state).toClosed
      refine F.bind ?_ (fun body => F.bind (ih.expand _ _ _ _ _) (fun dom => F.bind (F.setIndent _ _)
        (fun _ => F.bind (F.py (by constructor)) (fun _ => F.pure _))))
      cases c.body <;> first
        | exact F.pure _
        | exact F.bind (F.strOf _) (fun _ => F.bind (F.newText _ _) (fun _ => F.pure _))

theorem struct_names {src : Source P I} {tags : List TagExp} {b : Stmt P} {c : Ctx} (hc : c.WF)
    (hb : b.tails (Raw True)) {s' : Stmt P} {c' : Ctx}
    (h : analyse src (.struct tags b) c = .ok (s', c')) (sym : Str) : c'.get sym = c.get sym := by
  simp only [analyse] at h
  obtain ⟨tags', _, h⟩ := ok_bind h
  obtain ⟨⟨b', c1⟩, h1, h⟩ := ok_bind h
  cases h
  have w' : Ctx.WF { c with regular := c.regular + 1 } := fun x hx =>
    ⟨Nat.le_succ_of_le (hc x hx).1, (hc x hx).2⟩
  have := (analyse_post src found_any (N := True) (fun _ _ => trivial) b _ w' hb _ h1).1
  unfold Ctx.get
  rw [Ctx.leave_binds (c := c) (c1 := { c with regular := c.regular + 1 }) rfl this]

theorem struct_values {src : Source P I} {tags : List TagExp} {b : Stmt P} {c : Ctx} (hc : c.WF)
    (hb : b.tails (Raw True)) {s' : Stmt P} {c' : Ctx}
    (h : analyse src (.struct tags b) c = .ok (s', c'))
    (ops : PyOps P X W) {Γ : DefId → DefInfo P} (hΓ : ∀ id, (Γ id).writes c.Hidden)
    (n : Nat) (σ τ : StateId) (M : Machine P W) {sym : Str} {i : SlotInfo} (hi : c.get sym = some i) :
    ((transl (envAt ops Γ n) σ s' M).2.states τ).values i.id = (M.states τ).values i.id := by
  let V : Slot → Prop := fun sl => ∃ b ∈ c.binds, b.2.id = sl
  have hv : ∀ o, c.Hidden o → ∀ sl, V sl → o ≠ some sl := fun o ho sl ⟨b, hb, e⟩ => e ▸ ho b hb
  have w' : Ctx.WF { c with regular := c.regular + 1 } := fun x hx =>
    ⟨Nat.le_succ_of_le (hc x hx).1, (hc x hx).2⟩
  have hw : s'.writes (fun o => ∀ sl, V sl → o ≠ some sl) := by
    simp only [analyse] at h
    obtain ⟨tags', _, h⟩ := ok_bind h
    obtain ⟨⟨b', c1⟩, h1, h⟩ := ok_bind h
    cases h
    obtain ⟨p1, p2⟩ := analyse_post src found_any (N := True) (fun _ _ => trivial) b _ w' hb _ h1
    simp only [Stmt.writes]
    refine Stmt.writes_mono (fun o ho => hv o ?_) _ p2.1
    intro x hx
    rcases Ctx.W.fresh (c1 := { c with regular := c.regular + 1 }) hc (.refl _) ho p1.next with
      ⟨_, rfl⟩ | ⟨sl, rfl, h1, _⟩
    · exact nofun
    · intro he
      cases he
      exact absurd (hc x hx).2 (Nat.not_lt_of_le h1)
  have F := (envAt_same V ops Γ (fun id => DefInfo.writes_mono hv (hΓ id)) n).frame σ
  exact F.transl s' (Stmt.reads_of (q := fun _ => True) (fun _ => trivial) s') hw
    (fun hn => (hn trivial).elim) M τ i.id ⟨_, lookupBind_mem hi, rfl⟩

/-- Names: after a tagged block, anywhere in a script, every name denotes the same variable as before.
`c.WF`: slots in `c` were created before, on this level or above. -/
theorem C55_names (src : Source P I) (tags : List TagExp) (b : Stmt P) (c : Ctx) (hc : c.WF)
    (hb : b.unanalysed) (s' : Stmt P) (c' : Ctx)
    (h : analyse src (.struct tags b) c = .ok (s', c')) (sym : Str) : c'.get sym = c.get sym :=
  struct_names hc (Stmt.raw_tails b ⟨trivial, hb⟩) h sym

/-- Values: translation of a tagged block, including that of its tags and all user code called in it,
does not change any variable that is visible outside, if the hypertags that may be called do not. -/
theorem C55_values (src : Source P I) (tags : List TagExp) (b : Stmt P) (c : Ctx) (hc : c.WF)
    (hb : b.unanalysed) (s' : Stmt P) (c' : Ctx)
    (h : analyse src (.struct tags b) c = .ok (s', c'))
    (ops : PyOps P X W) (Γ : DefId → DefInfo P) (hΓ : ∀ id, (Γ id).writes c.Hidden)
    (n : Nat) (σ τ : StateId) (M : Machine P W) (sym : Str) (i : SlotInfo) (hi : c.get sym = some i) :
    ((transl (envAt ops Γ n) σ s' M).2.states τ).values i.id = (M.states τ).values i.id :=
  struct_values hc (Stmt.raw_tails b ⟨trivial, hb⟩) h ops hΓ n σ τ M hi

/-- The whole document: `children` are the blocks of a script, analysed with any global symbols and any
modules; a tagged block is anywhere in it, at any depth, but not in a hypertag definition. Hypertags
that may be called are those of this document, and hypertags of other documents, which have slots of
their own. Then every name denotes the same variable after the block as before, and translation of the
block does not change its value. -/
theorem C55_document (src : Source P I) (first : Slot) (globals : Dict Str (Val P))
    (ins : List (Str × Slot × Val P)) (c : Ctx) (children children' : List (Stmt P)) (cEnd : Ctx)
    (hg : valueSlots globals { next := first } = (.ok (ins, c) : Except (AErr I) _))
    (ha : analyseAll src children c = .ok (children', cEnd)) (hu : ∀ s ∈ children, s.unanalysed)
    (tags : List TagExp) (b : Stmt P) (ct : Ctx)
    (hp : Part src (.body children) c (.struct tags b) ct) :
    ∃ s' ct', analyse src (.struct tags b) ct = .ok (s', ct') ∧
      (∀ sym, ct'.get sym = ct.get sym) ∧
      ∀ (ops : PyOps P X W) (Γ : DefId → DefInfo P),
        (∀ id, (id, Γ id) ∈ Stmt.defsAll children' ∨
          (Γ id).writes (fun o => ∀ sl, o = some sl → sl < first ∨ cEnd.next ≤ sl)) →
        ∀ (n : Nat) (σ τ : StateId) (M : Machine P W) (sym : Str) (i : SlotInfo),
          ct.get sym = some i →
          ((transl (envAt ops Γ n) σ s' M).2.states τ).values i.id = (M.states τ).values i.id := by
  obtain ⟨g1, _⟩ := (valueSlots_judge globals { next := first }).post _ hg
  have wc : c.WF := g1.wf (fun x hx => by cases hx)
  have hb : ∀ x ∈ c.binds, first ≤ x.2.id := by
    intro x hx
    rcases g1.mem hx with h | h
    · cases h
    · exact h.2.1
  have ha' : analyse src (.body children) c = .ok (.body children', cEnd) := by
    simp only [analyse, ha]; rfl
  have tl : Stmt.tails (Raw True) (.body children) := by
    simp only [Stmt.tails, tailsAll_iff]
    exact fun s hs => Stmt.raw_tails s ⟨trivial, hu s hs⟩
  have h := hp.ok (N := True) _ _ ha' wc tl
  obtain ⟨s', ct', hs, _⟩ := h.ok
  have tb : b.tails (Raw True) := by have := h.tails; simpa only [Stmt.tails] using this
  refine ⟨s', ct', hs, struct_names h.wf tb hs, fun ops Γ hΓ n σ τ M sym i hi =>
    struct_values h.wf tb hs ops (fun id => ?_) n σ τ M hi⟩
  rcases hΓ id with hd | hd
  · exact h.defs (id, Γ id) (by simpa only [Stmt.defs] using hd)
  · refine DefInfo.writes_mono (fun o ho x hx => ?_) hd
    rintro rfl
    have h1 : first ≤ x.2.id := by
      rcases h.binds x hx with hx | hx
      · exact hb x hx
      · exact Nat.le_trans g1.next hx
    have h2 := Nat.lt_of_lt_of_le (h.wf x hx).2 h.hi
    rcases ho _ rfl with ho | ho
    · exact absurd h1 (Nat.not_le_of_lt ho)
    · exact absurd h2 (Nat.not_lt_of_le ho)

namespace Toy

/-- `$x = n`, as parsed; the number is written as `n` strokes. -/
def assignX (n : Nat) : Stmt Obj :=
  .assign (.var (s!!"x") false none none) none (.number (List.replicate n '1'))

/-- No modules, no context. -/
def noSource : Source Obj Nat := ⟨fun _ => .error 0, []⟩

/-- Analyse, translate and read the variable. -/
def finalX (children : List (Stmt Obj)) : Option (Option (Val Obj)) :=
  match analyseAll noSource children {} with
  | .ok (ss, c) =>
    (c.get (s!!"$x")).map fun i =>
      ((translAll (envAt ops (fun _ => ⟨none, [], .pass⟩) 5) 0 ss (machine [])).2.states 0).values i.id
  | .error _ => none

end Toy

/-- `$x = 1`, then a tagged block with `$x = 2`: `$x` is 1 afterwards. With an `if` block in place of the
tagged block it is 2. -/
example :
    Toy.finalX [Toy.assignX 1, .struct [.null] (Toy.assignX 2)] = some (some (Toy.num 1)) ∧
    Toy.finalX [Toy.assignX 1, .ifBlock [(.boolean true, some (Toy.assignX 2))] none]
      = some (some (Toy.num 2)) :=
  ⟨rfl, rfl⟩

/-- The hypotheses of `C55_document` hold for this script and the inner block. -/
example : let b : Stmt Toy.Obj := .body [Toy.assignX 2, .struct [.null] (Toy.assignX 3)];
    (∀ s ∈ [Toy.assignX 1, .struct [.null] b], s.unanalysed) ∧
    ∃ ct, Part Toy.noSource (.body [Toy.assignX 1, .struct [.null] b]) {}
      (.struct [.null] (Toy.assignX 3)) ct ∧ (ct.get (s!!"$x")).isSome := by
  refine ⟨?_, _, .child (pre := [Toy.assignX 1]) (post := []) rfl
    (.struct (.child (pre := [Toy.assignX 2]) (post := []) rfl (.self _ _))), rfl⟩
  intro s hs
  simp only [List.mem_cons, List.not_mem_nil, or_false] at hs
  rcases hs with rfl | rfl <;>
    simp [Stmt.unanalysed, Toy.assignX, Stmt.writes, Stmt.writesAll, Target.writes, Stmt.defs,
      Stmt.defsAll]

/-! ### C56 Undefined names are detected before translation -/

/-- Analysis of a document, in its two steps. -/
theorem analyseDocument_ok {src : Source P I} {first : Slot} {globals : Dict Str (Val P)}
    {children : List (Stmt P)} {doc : Document P}
    (h : analyseDocument src first globals children = .ok doc) : ∃ ins c1 c2,
    valueSlots globals { next := first } = (.ok (ins, c1) : Except (AErr I) _) ∧
    analyseAll src children c1 = .ok (doc.children, c2) ∧ doc.slotsIn = ins.map Prod.snd := by
  unfold analyseDocument at h
  obtain ⟨⟨ins, c1⟩, h1, h⟩ := ok_bind h
  obtain ⟨⟨ss, c2⟩, h2, h⟩ := ok_bind h
  cases h
  exact ⟨ins, c1, c2, h1, h2, rfl⟩

theorem noForElse_raw {ss : List (Stmt P)} (h : ∀ s ∈ ss, s.noForElse) :
    Stmt.tailsAll (Raw False) ss :=
  (tailsAll_iff ss).2 (fun s hs => Stmt.tails_mono (fun _ h => h.elim) s (h s hs))

theorem document_judge (src : Source P I) (first : Slot) (globals : Dict Str (Val P))
    (children : List (Stmt P)) (hf : ∀ s ∈ children, s.noForElse) :
    Judge (Stmt.scopedAll src (globals.map Prod.fst) children) (fun _ => True)
      (analyseDocument src first globals children) := by
  unfold analyseDocument
  refine (Judge.bind (valueSlots_judge globals { next := first })
    (B := Stmt.scopedAll src (globals.map Prod.fst) children) ?_).iff (by simp)
  rintro ⟨ins, c1⟩ ⟨h1, h2, _⟩
  have w : c1.WF := h1.wf (fun x hx => by cases hx)
  have hS : SameNames (globals.map Prod.fst) c1.binds := by
    have := h2.same (S := []) (fun _ => Iff.rfl)
    simpa using this
  exact (analyseAll_names src children c1 _ hS w (noForElse_raw hf)).map (fun _ _ => .pure trivial trivial)

/-- A script with a variable or tag that is not in scope is rejected. `Stmt.scopedAll` says that every use
of a name comes after a definition in the same or an enclosing block.
Missing for the full property: scripts with an `else` clause of a `for` block. -/
theorem C56_rejected_partial (src : Source P I) (first : Slot) (globals : Dict Str (Val P))
    (children : List (Stmt P)) (hf : ∀ s ∈ children, s.noForElse)
    (h : ¬ Stmt.scopedAll src (globals.map Prod.fst) children) :
    ∃ e, analyseDocument src first globals children = .error e := by
  cases hr : analyseDocument src first globals children with
  | error e => exact ⟨e, rfl⟩
  | ok doc => exact absurd ((document_judge src first globals children hf).1 doc hr).1 h

/-- Scripts without such names are not rejected for that reason. -/
theorem C56_only_undefined_partial (src : Source P I) (first : Slot) (globals : Dict Str (Val P))
    (children : List (Stmt P)) (hf : ∀ s ∈ children, s.noForElse) (e : AErr I)
    (he : analyseDocument src first globals children = .error e)
    (h : Stmt.scopedAll src (globals.map Prod.fst) children) (sym : Str) :
    e ≠ .undefinedVar sym ∧ e ≠ .undefinedTag sym := by
  have := (document_judge src first globals children hf).2 e he
  constructor
  · rintro rfl; exact this trivial h
  · rintro rfl; exact this trivial h

/-- All names of an accepted document have slots. -/
theorem document_slots {src : Source P I} {first : Slot} {globals : Dict Str (Val P)}
    {children : List (Stmt P)} (hf : ∀ s ∈ children, s.noForElse) {doc : Document P}
    (h : analyseDocument src first globals children = .ok doc) :
    Stmt.readsAll (· ≠ none) doc.children ∧ Stmt.writesAll (· ≠ none) doc.children ∧
    ∀ d ∈ Stmt.defsAll doc.children, d.2.reads (· ≠ none) ∧ d.2.writes (· ≠ none) := by
  obtain ⟨ins, c1, c2, h1, h2, _⟩ := analyseDocument_ok h
  have w : c1.WF := ((valueSlots_judge globals { next := first }).post _ h1).1.wf
    (fun x hx => by cases hx)
  obtain ⟨_, t1, t2, t3⟩ := analyseAll_post src (q := (· ≠ none)) (N := False) (fun _ => nofun)
    (fun h => h.elim) children c1 w (noForElse_raw hf) _ h2
  refine ⟨t2, Stmt.writesAll_mono (fun o ho => ?_) _ t1, fun d hd =>
    ⟨(t3 d hd).2, DefInfo.writes_mono (fun o ho => ?_) (t3 d hd).1⟩⟩
  · rcases ho with ⟨h, _⟩ | ⟨sl, rfl, _⟩
    · exact h.elim
    · exact nofun
  · rcases ho with ⟨h, _⟩ | ⟨sl, rfl, _⟩
    · exact h.elim
    · exact nofun

/-- A script that was accepted does not fail later because of a name that was not resolved, whatever
values it has, whatever user code it calls (that does not do so by itself), and whatever hypertags it
expands, of this and other accepted documents. -/
theorem C56_accepted_partial (src : Source P I) (first : Slot) (globals : Dict Str (Val P))
    (children : List (Stmt P)) (hf : ∀ s ∈ children, s.noForElse) (doc : Document P)
    (h : analyseDocument src first globals children = .ok doc)
    (ops : PyOps P X W) (ho : ops.honest) (Γ : DefId → DefInfo P)
    (hΓ : ∀ id, ∃ (src' : Source P I) (first' : Slot) (globals' : Dict Str (Val P))
      (children' : List (Stmt P)) (doc' : Document P), (∀ s ∈ children', s.noForElse) ∧
      analyseDocument src' first' globals' children' = .ok doc' ∧
      (id, Γ id) ∈ Stmt.defsAll doc'.children)
    (n : Nat) (σ : StateId) (M : Machine P W) :
    (translDocument (envAt ops Γ n) σ doc M).1 ≠ .raise .unresolved := by
  obtain ⟨h1, h2, _⟩ := document_slots hf h
  have E := envAt_noUnres ops ho Γ (fun id => by
    obtain ⟨_, _, _, _, _, hf', h', hd⟩ := hΓ id
    exact (document_slots hf' h').2.2 _ hd) n
  have F := E.frame σ
  have hsym : ∀ l : List (Str × Slot), NoUnres _ (readSymbols σ l : Comp P X W _) := by
    intro l
    induction l with
    | nil => exact F.pure _
    | cons a l ih =>
      obtain ⟨sym, sl⟩ := a
      refine F.bind (F.getSlot _ _ nofun) (fun v => F.bind ih (fun d => ?_))
      cases v <;> exact F.pure _
  refine F.bind (F.setSlots _ ?_) (fun _ => F.bind (F.translAll trivial doc.children h1 h2) (fun _ =>
    F.bind (F.newNode _ _ _ _ _ _) (fun _ => F.bind (F.readNode _) (fun _ =>
      F.bind (F.writeNode _ _) (fun _ => F.bind (hsym _) (fun _ => F.pure _)))))) M
  intro o ho
  simp only [wildSlots, List.mem_map] at ho
  obtain ⟨x, _, rfl⟩ := ho
  exact nofun

/-- Then a name is either read or "referenced before assignment", the latter exactly if its slot is
empty. -/
theorem C56_before_assignment (E : Env P X W) (σ : StateId) (name : Str) (sl : Slot)
    (M : Machine P W) :
    (eval E σ (.varUse name (some sl)) M).1 =
      match (M.states σ).values sl with
      | some v => .ok v
      | none => .raise .unbound := by
  simp only [eval, readName]
  show (Comp.next _ (getSlot σ sl M)).1 = _
  simp only [getSlot, Comp.next]
  cases (M.states σ).values sl <;> rfl

namespace Toy

/-- `for x in f() ... else $y`, as parsed. -/
def forElse : Stmt Obj :=
  .forBlock (.var (s!!"x") false none none) (.varUse (s!!"f") none)
    [.pass, .elseClause (some (.exprBlock (.varUse (s!!"y") none)))]

end Toy

/-- The `else` clause of a `for` block is not analysed: this script uses an undefined name, is accepted,
and fails with an unresolved name when it is translated. -/
theorem C56_not_in_general : ∃ (globals : Dict Str (Val Toy.Obj)) (doc : Document Toy.Obj),
    ¬ Stmt.scopedAll Toy.noSource (globals.map Prod.fst) [Toy.forElse] ∧
    analyseDocument Toy.noSource 0 globals [Toy.forElse] = .ok doc ∧
    (translDocument (envAt Toy.ops (fun _ => ⟨none, [], .pass⟩) 5) 0 doc (Toy.machine [])).1 =
      .raise .unresolved := by
  refine ⟨[(s!!"$f", .py (.seq []))], _, ?_, rfl, rfl⟩
  simp [Toy.forElse, Stmt.scopedAll, Stmt.scoped, Stmt.scopedOpt, Stmt.defines, Expr.uses, Target.defines,
    Target.scoped]

/-- `$y` is defined in a tagged block and used after it: rejected. Used inside of it: accepted. -/
example : let y : Stmt Toy.Obj := .assign (.var (s!!"y") false none none) none (.number ['1']);
    let use : Stmt Toy.Obj := .exprBlock (.varUse (s!!"y") none);
    (analyseDocument Toy.noSource 0 [] [.struct [.null] y, use] matches .error (.undefinedVar _)) ∧
    (analyseDocument Toy.noSource 0 [] [.struct [.null] (.body [y, use])] matches .ok _) ∧
    Stmt.scopedAll Toy.noSource [] [.struct [.null] (.body [y, use])] ∧
    ¬ Stmt.scopedAll Toy.noSource [] [.struct [.null] y, use] := by
  refine ⟨rfl, rfl, ?_, ?_⟩
  all_goals simp [Stmt.scopedAll, Stmt.scoped, Stmt.defines, Expr.uses, Target.defines, Target.scoped,
    TagExp.uses]

end
end Verif
