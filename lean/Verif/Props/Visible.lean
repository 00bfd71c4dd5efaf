import Verif.Lemmas.Visible
import Verif.Lemmas.Part
import Verif.Lemmas.Shows
import Verif.Props.Scope
import Verif.Props.Control
import Verif.Props.Safety
import Verif.Props.Made

/-! Variables assigned in control blocks (C96), symbols exported by a script (C97). -/

namespace Verif
open Py

section
variable {P X W I : Type}

/-! ### C96 A variable assigned in a control block is visible after it -/

/-- Nothing is imported or defined as a tag in a control block that is accepted. -/
theorem control_introduces (src : Source P I) (y : Str) (s : Stmt P) (hs : s.isControl = true) (c : Ctx) (w : c.WF)
    (t : s.noForElse) (hp : c.prolog = false) (hy : c.Here y) :
    Post (fun _ => y ∉ s.introduces src) (analyse src s c) := by
  unfold Stmt.noForElse at t
  cases s with
  | tryBlock bs =>
    simp only [analyse, Stmt.introduces]
    simp only [Stmt.tails] at t
    refine Post.bind (analyseBranches_level src y bs { c with control := c.control + 1 } w t hp hy (Nat.le_add_left _ _)) ?_
    rintro ⟨bs', c1⟩ h
    exact .pure (h.ctl (Nat.le_add_left _ _))
  | ifBlock cs els =>
    simp only [analyse, Stmt.introduces]
    simp only [Stmt.tails] at t
    refine Post.bind (analyseClauses_level src y cs { c with control := c.control + 1 } w t.1 hp hy (Nat.le_add_left _ _)) ?_
    rintro ⟨cs', c1⟩ h
    refine Post.bind (analyseElse_level src y els c1 (h.step.wf w) t.2 h.prolog (h.step.here hy)
      (by rw [h.step.control]; exact Nat.le_add_left _ _)) ?_
    rintro ⟨els', c2⟩ h'
    exact .pure ((h.seq_mem h').ctl (Nat.le_add_left _ _))
  | whileBlock e b els =>
    simp only [analyse, Stmt.introduces]
    simp only [Stmt.tails] at t
    refine Post.bind (Post.any _) (fun _ _ => Post.bind
      (analyseOpt_level src y b { c with control := c.control + 1 } w t.1 hp hy) ?_)
    rintro ⟨b', c1⟩ h
    have h := h.merge (Nat.le_add_left _ _)
    refine Post.bind (analyseElse_level src y els _ (h.step.wf w) t.2 h.prolog (h.step.here hy)
      (by rw [h.step.control]; exact Nat.le_add_left _ _)) ?_
    rintro ⟨els', c2⟩ h'
    exact .pure ((h.seq_mem h').ctl (Nat.le_add_left _ _))
  | forBlock tg e rest =>
    simp only [analyse, Stmt.introduces]
    simp only [Stmt.tails] at t
    refine Post.bind (Post.any _) (fun _ _ => Post.bind
      (analyseTarget_level y tg { c with control := c.control + 1 } hp hy) ?_)
    rintro ⟨tg', c1⟩ h
    refine Post.bind (analyseFirst_level src y rest c1 (h.step.wf w) t h.prolog (h.step.here hy)) ?_
    rintro ⟨rest', c2⟩ h'
    exact .pure (fun hi => (h.seq h').ctl (Nat.le_add_left _ _) (.inr hi))
  | _ => cases hs

/-- Names: after a control block a name denotes the variable that the block assigns to, wherever in the
block: every assignment to `x` in it, outside of tagged blocks inside it, goes to the variable that `x`
denotes afterwards.
Missing for the full property, in which it fails: `x` is a variable of an outer block and the control
block is inside of a tagged block (`hx`); `else` clauses of `for` blocks, which are not analysed. -/
theorem C96_visible_partial (src : Source P I) (s : Stmt P) (hs : s.isControl = true) (hf : s.noForElse) (c : Ctx) (hc : c.WF)
    (hp : c.prolog = false) (x : Str) (hx : ∀ i, c.get ('$' :: x) = some i → i.depth = c.regular) (s' : Stmt P) (c' : Ctx)
    (h : analyse src s c = .ok (s', c')) :
    (∀ o ∈ s'.slotsOf ('$' :: x), ∃ i, c'.get ('$' :: x) = some i ∧ o = some i.id) ∧
    ('$' :: x ∈ s.defines src → (c'.get ('$' :: x)).isSome) ∧
    ∀ i, c.get ('$' :: x) = some i → c'.get ('$' :: x) = some i := by
  have hl := analyse_level src ('$' :: x) s c hc hf hp hx _ h
  have hi := control_introduces src ('$' :: x) s hs c hc hf hp hx _ h
  refine ⟨hl.slots hi, fun hd => ?_, fun i => hl.keep hi⟩
  cases hg : c.get ('$' :: x) with
  | some i => rw [hl.keep hi hg]; rfl
  | none =>
    obtain ⟨i, e, _⟩ := hl.step.get_new (hl.added.2 (.inr ⟨hg, hd⟩))
    rw [e]; rfl

/-- Anywhere in a document, with any globals and modules, but not in the definition of a hypertag: it is
enough that the control block is not in a tagged block (`ct.regular = 0`), or that no variable of this
name was visible before, or one of the same tagged block. -/
theorem C96_document_partial (src : Source P I) (first : Slot) (globals : Dict Str (Val P))
    (ins : List (Str × Slot × Val P)) (c : Ctx) (children children' : List (Stmt P)) (cEnd : Ctx)
    (hg : valueSlots globals { next := first } = (.ok (ins, c) : Except (AErr I) _))
    (ha : analyseAll src children c = .ok (children', cEnd)) (hf : ∀ s ∈ children, s.noForElse)
    (m : Str) (mo : Option Modifier) (s : Stmt P) (hs : s.isControl = true) (ct : Ctx)
    (hp : Part src (.body children) c (.xblock m mo s) ct) (x : Str)
    (hx : ct.regular = 0 ∨ ct.get ('$' :: x) = none ∨ ∃ i, ct.get ('$' :: x) = some i ∧ i.depth = ct.regular) :
    ∃ s' ct', analyse src (.xblock m mo s) ct = .ok (s', ct') ∧
      (∀ o ∈ s'.slotsOf ('$' :: x), ∃ i, ct'.get ('$' :: x) = some i ∧ o = some i.id) ∧
      ('$' :: x ∈ s.defines src → (ct'.get ('$' :: x)).isSome) ∧
      ∀ i, ct.get ('$' :: x) = some i → ct'.get ('$' :: x) = some i := by
  obtain ⟨g1, _⟩ := (valueSlots_judge globals { next := first }).post _ hg
  have wc : c.WF := g1.wf (fun x hx => by cases hx)
  have ha' : analyse src (.body children) c = .ok (.body children', cEnd) := by
    simp only [analyse, ha]; rfl
  have tl : Stmt.tails (Raw False) (.body children) := by
    simp only [Stmt.tails]; exact noForElse_raw hf
  have h := hp.ok (N := False) _ _ ha' wc tl
  obtain ⟨s', ct', hs', _⟩ := h.ok
  refine ⟨s', ct', hs', ?_⟩
  have tb : s.noForElse := by
    have := Stmt.tails_mono (L := fun _ => False) (fun _ h => h.1) _ h.tails
    simp only [Stmt.tails] at this
    exact this
  simp only [analyse] at hs'
  obtain ⟨⟨b', c1⟩, h1, hs'⟩ := ok_bind hs'
  cases hs'
  have e : leaveProlog s ct = ct.started := by
    cases s <;> first | rfl | cases hs
  rw [e] at h1
  refine C96_visible_partial src s hs tb ct.started h.wf rfl x ?_ b' c1 h1
  intro i hi
  change ct.get ('$' :: x) = some i at hi
  show i.depth = ct.regular
  rcases hx with hx | hx | ⟨j, hj, hd⟩
  · have := (h.wf _ (lookupBind_mem hi)).1
    rw [hx] at this ⊢
    exact Nat.le_zero.1 this
  · rw [hx] at hi; cases hi
  · cases hj.symm.trans hi; exact hd

/-! Values -/

theorem slotsOfAll_append (y : Str) (a b : List (Stmt P)) : Stmt.slotsOfAll y (a ++ b) = Stmt.slotsOfAll y a ++ Stmt.slotsOfAll y b := by
  induction a with
  | nil => simp [Stmt.slotsOfAll]
  | cons s a ih => simp only [List.cons_append, Stmt.slotsOfAll, ih, List.append_assoc]

theorem slotsOfClauses_append (y : Str) (a b : List (Expr × Option (Stmt P))) :
    Stmt.slotsOfClauses y (a ++ b) = Stmt.slotsOfClauses y a ++ Stmt.slotsOfClauses y b := by
  induction a with
  | nil => simp [Stmt.slotsOfClauses]
  | cons s a ih => simp only [List.cons_append, Stmt.slotsOfClauses, ih, List.append_assoc]

/-- What changes nodes only does not change variables. -/
theorem nodes_frame (σ : StateId) (ops : PyOps P X W) :
    TransFrame (envAt ops (fun _ => ⟨none, [], .pass⟩) 0) (fun _ c => Keeps (SameValues (P := P) (W := W) fun _ => True) c) σ
      (fun o => ∀ sl, True → o ≠ some sl) (fun _ _ => True) True :=
  (envAt_same (fun _ => True) ops (fun _ => ⟨none, [], .pass⟩)
    (fun _ => by simp [DefInfo.writes, Stmt.writes]) 0).frame σ

theorem finishBlock_values (ops : PyOps P X W) (σ : StateId) {mo : Option Modifier} {ms : List Ref} {b : Option (List Ref)} {M M' : Machine P W} {r}
    (h : (finishBlock mo ms b : Comp P X W _) M = (r, M')) (τ : StateId) (sl : Slot) : (M'.states τ).values sl = (M.states τ).values sl := by
  have := (nodes_frame σ ops).finishBlock mo ms b M τ sl trivial
  rw [h] at this
  exact this

theorem placed_values (ops : PyOps P X W) {σ : StateId} {a out : Option (List Ref)} {M M' : Machine P W}
    (h : Gives (placed (X := X) σ (return a)) M out M') (τ : StateId) (sl : Slot) : (M'.states τ).values sl = (M.states τ).values sl := by
  have F := nodes_frame σ ops
  unfold Gives placed at h
  obtain ⟨a', M0, h0, h⟩ := Comp.bind_eq_ok.1 h
  cases h0
  obtain ⟨ind, M1, h1, h⟩ := Comp.bind_eq_ok.1 h
  cases h1
  obtain ⟨_, M2, h2, h⟩ := Comp.bind_eq_ok.1 h
  cases h
  have := F.setIndent (M.states σ).indentation (nodesOf a) M τ sl trivial
  rw [h2] at this
  exact this

/-- A body that ends with an assignment to a variable: at its end the variable has the value assigned,
which was computed in the state after the rest of the body. -/
theorem body_assigns {E : Env P X W} {σ : StateId} {ss : List (Stmt P)} {m : Str} {mo : Option Modifier} {x : Str} {rd : Bool}
    {r : Option Slot} {sl : Slot} {op : Option Str} {e : Expr} {M M' : Machine P W} {out : Option (List Ref)}
    (h : Gives (transl E σ (.body (ss ++ [.xblock m mo (.assign (.var x rd r (some sl)) op e)]))) M out M') :
    ∃ ns M0 ms M1 v0 M2 v M3, Gives (translAll E σ ss) M ns M0 ∧ Gives (translStatic (X := X) m) M0 ms M1 ∧ Gives (eval E σ e) M1 v0 M2 ∧
      Gives (inplace E σ (.var x rd r (some sl)) op v0) M2 v M3 ∧ (M'.states σ).values sl = some v := by
  unfold Gives at h
  simp only [transl] at h
  obtain ⟨ns, M5, h, h5⟩ := Comp.bind_eq_ok.1 h
  cases h5
  unfold keepIndent restoring at h
  obtain ⟨h6, h7⟩ := Prod.mk.inj h
  rcases hr : translAll E σ (ss ++ [.xblock m mo (.assign (.var x rd r (some sl)) op e)]) M with ⟨r1, M6⟩
  rw [hr] at h6 h7
  cases h6
  rw [translAll_append] at hr
  obtain ⟨ns0, M0, h1, hr⟩ := Comp.bind_eq_ok.1 hr
  obtain ⟨ns1, M7, h2, hr⟩ := Comp.bind_eq_ok.1 hr
  cases hr
  simp only [translAll, transl] at h2
  obtain ⟨a, M8, h2, h3⟩ := Comp.bind_eq_ok.1 h2
  cases h3
  obtain ⟨ms, M1, h3, h2⟩ := Comp.bind_eq_ok.1 h2
  obtain ⟨b, M9, h4, h2⟩ := Comp.bind_eq_ok.1 h2
  obtain ⟨bs, M10, h5, h2⟩ := Comp.bind_eq_ok.1 h2
  cases h2
  obtain ⟨v0, M2, h6, h4⟩ := Comp.bind_eq_ok.1 h4
  obtain ⟨v, M3, h7', h4⟩ := Comp.bind_eq_ok.1 h4
  obtain ⟨_, M4, h8, h4⟩ := Comp.bind_eq_ok.1 h4
  cases h4
  refine ⟨ns0, M0, ms, M1, v0, M2, v, M3, h1, h3, h6, h7', ?_⟩
  simp only [assignTarget, setSlot] at h8
  cases h8
  have hf := finishBlock_values E.ops σ h5 σ sl
  rw [← h7]
  simp [Machine.updState] at hf ⊢
  exact hf

/-- Values, for an `if` block: if the body of the clause that is taken ends with an assignment to `x`,
then the name `x`, looked up after the block, evaluates to the value assigned. -/
theorem C96_value_partial (src : Source P I) (s : Stmt P) (hs : s.isControl = true) (hf : s.noForElse) (c : Ctx) (hc : c.WF)
    (hp : c.prolog = false) (x : Str) (hx : ∀ i, c.get ('$' :: x) = some i → i.depth = c.regular) (c' : Ctx)
    (pre post : List (Expr × Option (Stmt P))) (t : Expr) (ss : List (Stmt P)) (m : Str) (mo : Option Modifier) (rd : Bool)
    (r w : Option Slot) (op : Option Str) (e : Expr) (els : Option (Stmt P))
    (h : analyse src s c = .ok (.ifBlock (pre ++ (t, some (.body (ss ++ [.xblock m mo (.assign (.var x rd r w) op e)]))) :: post) els, c')) :
    ∃ sl, (analyseExpr c'.binds (.varUse x none) : Except (AErr I) _) = .ok (.varUse x (some sl)) ∧
      ∀ (E : Env P X W) (σ : StateId) (M M1 M2 M3 M' : Machine P W) (b : Val P) (out : Option (List Ref)),
        AllTested (truthOf E) false (pre.map (fun c => eval E σ c.1)) M M1 → Gives (eval E σ t) M1 b M2 → Gives (truthOf E b) M2 true M3 →
        Gives (transl E σ (.ifBlock (pre ++ (t, some (.body (ss ++ [.xblock m mo (.assign (.var x rd r w) op e)]))) :: post) els)) M out M' →
        ∃ ns M4 ms M5 v0 M6 v M7, Gives (translAll E σ ss) M3 ns M4 ∧ Gives (translStatic (X := X) m) M4 ms M5 ∧ Gives (eval E σ e) M5 v0 M6 ∧
          Gives (inplace E σ (.var x rd r w) op v0) M6 v M7 ∧ Gives (eval E σ (.varUse x (some sl))) M' v M' := by
  obtain ⟨hv, _⟩ := C96_visible_partial src s hs hf c hc hp x hx _ c' h
  obtain ⟨i, hi, rfl⟩ := hv w (by
    simp [Stmt.slotsOf, slotsOfClauses_append, Stmt.slotsOfClauses, Stmt.slotsOfClause, Stmt.slotsOfOpt, slotsOfAll_append,
      Stmt.slotsOfAll, Target.slotsOf])
  refine ⟨i.id, ?_, ?_⟩
  · simp only [analyseExpr, resolve]
    unfold Ctx.get at hi
    rw [hi]; rfl
  · intro E σ M M1 M2 M3 M' b out hpre ht hb hrun
    unfold Gives at hrun
    rw [(C50_first_true E σ pre post t _ els M M1 M2 M3 b hpre ht hb).1] at hrun
    obtain ⟨a, M4, h1, h2⟩ := Comp.bind_eq_ok.1 hrun
    obtain ⟨ns, M0, ms, M5, v0, M6, v, M7, k1, k2, k3, k4, k5⟩ := body_assigns h1
    refine ⟨ns, M0, ms, M5, v0, M6, v, M7, k1, k2, k3, k4, ?_⟩
    have hval := placed_values E.ops (a := a) (M := M4) (M' := M') (out := out) h2 σ i.id
    rw [k5] at hval
    unfold Gives
    simp only [eval, readName]
    rw [Comp.bind_run]
    simp only [getSlot, hval]
    rfl

end

namespace VisibleEx

def globals : Dict Str (Val Toy.Obj) := [(s!!"%p", .py (.tag 0)), (s!!"$s", .py (.seq [.num 1]))]

/-- Assignment in an `if` block that stands in a tagged block, to a name that exists outside of it. -/
def hidden : Str := s!!"$ x = 'a'\np\n    if True\n        $ x = 'b'\n    | $x\n"

/-- The same with a `for` block. -/
def loop : Str := s!!"$ x = 'a'\np\n    for i in s\n        $ x = 'b'\n    | $x\n"

/-- The same without the tagged block. -/
def plain : Str := s!!"$ x = 'a'\nif True\n    $ x = 'b'\n| $x\n"

/-- A new name. -/
def fresh : Str := s!!"p\n    try\n        $ x = 'b'\n    | $x\n"

end VisibleEx

/-- Not so in a tagged block: the assignment in the `if` block makes a variable of its own, which is not
visible in the next line, where `x` is the outer variable. -/
theorem C96_not_in_general : exText VisibleEx.globals VisibleEx.hidden = some (s!!"<p>\n    a\n</p>\n") := by decide +kernel

example : exText VisibleEx.globals VisibleEx.loop = some (s!!"<p>\n    b\n</p>\n") := by decide +kernel
example : exText VisibleEx.globals VisibleEx.plain = some (s!!"b\n") := by decide +kernel
example : exText VisibleEx.globals VisibleEx.fresh = some (s!!"<p>\n    b\n</p>\n") := by decide +kernel

/-- The hypotheses of `C96_visible_partial` and `C96_value_partial`: `if f(): $x = 1`, at the top level. -/
example : ∃ (s' : Stmt Toy.Obj) (c' : Ctx) (i : SlotInfo),
    analyse Toy.noSource (.ifBlock [(.boolean true, some (.body [.xblock [] none (Toy.assignX 2)]))] none) { prolog := false } = .ok (s', c') ∧
    s'.slotsOf (s!!"$x") = [some 0] ∧ c'.get (s!!"$x") = some i ∧ i.id = 0 :=
  ⟨_, _, _, rfl, rfl, rfl, rfl⟩

section
variable {P X W I : Type}

/-! ### C97 Symbols exported by a script -/

theorem blocks_role {ss : List (Stmt P)} (h : Stmt.Blocks ss) : ∀ s ∈ ss, s.role = .piece ∨ s.role = .block := by
  unfold Stmt.Blocks at h
  induction h with
  | nil => intro s hs; cases hs
  | one hq _ ih =>
    intro s hs
    rcases List.mem_cons.1 hs with rfl | hs
    · exact .inr hq
    · exact ih s hs
  | sub _ _ _ ih1 ih2 =>
    intro s hs
    rcases List.mem_cons.1 hs with rfl | hs
    · exact .inl rfl
    · rcases List.mem_append.1 hs with hs | hs
      · exact ih1 s hs
      · rcases List.mem_cons.1 hs with rfl | hs
        · exact .inl rfl
        · exact ih2 s hs

theorem document_role {M : Marks} {U : Uni} {ss : List (Stmt P)} (h : Stmt.MadeDocument M U ss) : ∀ s ∈ ss, s.role = .piece ∨ s.role = .block := by
  obtain ⟨⟨blocks, margin, rfl, hb, _, hm⟩, _⟩ := h
  intro s hs
  rcases List.mem_append.1 hs with hs | hs
  · exact blocks_role hb s hs
  · obtain ⟨w, rfl⟩ := hm s hs
    exact .inl rfl

/-- Analysis of a document, with the context at its end. -/
theorem analyseDocument_end {src : Source P I} {first : Slot} {globals : Dict Str (Val P)}
    {children : List (Stmt P)} {doc : Document P}
    (h : analyseDocument src first globals children = .ok doc) : ∃ ins c1 c2,
    valueSlots globals { next := first } = (.ok (ins, c1) : Except (AErr I) _) ∧
    analyseAll src children c1 = .ok (doc.children, c2) ∧ doc.slotsIn = ins.map Prod.snd ∧
    doc.slotsOut = (Dict.update [] (c2.binds.drop c1.binds.length)).map (fun p => (p.1, p.2.id)) := by
  unfold analyseDocument at h
  obtain ⟨⟨ins, c1⟩, h1, h⟩ := ok_bind h
  obtain ⟨⟨ss, c2⟩, h2, h⟩ := ok_bind h
  cases h
  exact ⟨ins, c1, c2, h1, h2, rfl, rfl⟩

/-- The symbols exported are those imported or defined as tags on the top level, and the variables
assigned there, in control blocks as well, that are not global symbols.
Missing for the full property, in which it fails: variables that have the name of a global symbol, i.e., a
builtin; `else` clauses of `for` blocks. -/
theorem C97_exported_partial (M : Marks) (U : Uni) (src : Source P I) (first : Slot) (globals : Dict Str (Val P)) (children : List (Stmt P))
    (hm : Stmt.MadeDocument M U children) (hf : ∀ s ∈ children, s.noForElse) (doc : Document P)
    (h : analyseDocument src first globals children = .ok doc) (y : Str) :
    y ∈ doc.slotsOut.map Prod.fst ↔
      y ∈ Stmt.introducesAll src children ∨ (y ∉ globals.map Prod.fst ∧ y ∈ Stmt.definesAll src children) := by
  obtain ⟨ins, c1, c2, h1, h2, _, h3⟩ := analyseDocument_end h
  obtain ⟨g1, g2, _⟩ := (valueSlots_judge globals { next := first }).post _ h1
  have w : c1.WF := g1.wf (fun x hx => by cases hx)
  have hy : c1.Here y := by
    intro i hi
    have := (w _ (lookupBind_mem hi)).1
    rw [g1.regular] at this ⊢
    exact Nat.le_zero.1 this
  have hl := blocks_level src y children (document_role hm) c1 w hf g1.control hy _ h2
  have ha := hl.added
  rw [h3, List.map_map]
  have e : (Prod.fst ∘ fun p : Str × SlotInfo => (p.1, p.2.id)) = Prod.fst := rfl
  rw [e, Ctx.keys_update]
  have : y ∈ c1.added c2.started ↔ y ∈ ([] : Dict Str SlotInfo).map Prod.fst ∨ y ∈ (c2.binds.drop c1.binds.length).map Prod.fst := by
    simp [Ctx.added, Ctx.started]
  rw [← this, ha, Ctx.get_none_iff]
  have := g2 y
  simp only [List.map_nil, List.not_mem_nil, false_or] at this
  rw [this]

/-- Reading the variables of the exported symbols. -/
theorem readSymbols_spec (σ : StateId) (l : List (Str × Slot)) (M : Machine P W) :
    ∃ d, (readSymbols σ l : Comp P X W _) M = (.ok d, M) ∧ (∀ y ∈ d.map Prod.fst, y ∈ l.map Prod.fst) ∧
      ((l.map Prod.fst).Nodup → (d.map Prod.fst).Nodup ∧ ∀ y, Dict.get? d y = (Dict.get? l y).bind (M.states σ).values) := by
  induction l with
  | nil => exact ⟨[], rfl, by simp, fun _ => ⟨.nil, fun y => rfl⟩⟩
  | cons a l ih =>
    obtain ⟨sym, sl⟩ := a
    obtain ⟨d, h1, h2, h3⟩ := ih
    simp only [readSymbols]
    rw [Comp.bind_run]
    show ∃ d, (readSymbols σ l >>= _ : Comp P X W _) M = _ ∧ _
    rw [Comp.bind_run, h1]
    cases hv : (M.states σ).values sl with
    | some v =>
      refine ⟨(sym, v) :: d, rfl, ?_, ?_⟩
      · intro y hy
        simp only [List.map_cons, List.mem_cons] at hy ⊢
        exact hy.imp_right (h2 y)
      · intro hn
        simp only [List.map_cons, List.nodup_cons] at hn ⊢
        refine ⟨⟨fun h => hn.1 (h2 _ h), (h3 hn.2).1⟩, fun y => ?_⟩
        simp only [Dict.get?, (h3 hn.2).2 y]
        split
        · simp [hv]
        · rfl
    | none =>
      refine ⟨d, rfl, fun y hy => List.mem_cons_of_mem _ (h2 y hy), ?_⟩
      intro hn
      simp only [List.map_cons, List.nodup_cons] at hn
      refine ⟨(h3 hn.2).1, fun y => ?_⟩
      simp only [Dict.get?, (h3 hn.2).2 y]
      split
      · rename_i e
        subst e
        have : Dict.get? l sym = none := (Dict.get?_eq_none_iff l sym).2 hn.1
        rw [this, Option.bind_some, hv]; rfl
      · rfl

theorem get?_map_id (d : Dict Str SlotInfo) (y : Str) :
    Dict.get? (d.map (fun p => (p.1, p.2.id))) y = (Dict.get? d y).map (·.id) := by
  induction d with
  | nil => rfl
  | cons p d ih =>
    simp only [List.map_cons, Dict.get?, ih]
    split <;> rfl

/-- The value exported for a symbol is the one that its name has at the end of the script: if the script
went on with a use of the name, it would be analysed to read the variable whose value is exported.
There is no entry for a symbol whose variable has not got a value. -/
theorem C97_values (src : Source P I) (first : Slot) (globals : Dict Str (Val P)) (children : List (Stmt P))
    (hu : ∀ s ∈ children, s.unanalysed) (doc : Document P) (h : analyseDocument src first globals children = .ok doc)
    (E : Env P X W) (σ : StateId) (M M' : Machine P W) (root : Ref) (syms : Dict Str (Val P))
    (hrun : translDocument E σ doc M = (.ok (root, syms), M')) :
    (syms.map Prod.fst).Nodup ∧
    (∀ y ∉ doc.slotsOut.map Prod.fst, Dict.get? syms y = none) ∧
    (∀ x, '$' :: x ∈ doc.slotsOut.map Prod.fst → ∃ sl doc', analyseDocument src first globals (children ++ [.exprBlock (.varUse x none)]) = .ok doc' ∧
      doc'.children = doc.children ++ [.exprBlock (.varUse x (some sl))] ∧ Dict.get? syms ('$' :: x) = (M'.states σ).values sl) ∧
    ∀ y ∈ doc.slotsOut.map Prod.fst, ∃ sl doc', analyseDocument src first globals (children ++ [.exprBlock (.tagUse y none)]) = .ok doc' ∧
      doc'.children = doc.children ++ [.exprBlock (.tagUse y (some sl))] ∧ Dict.get? syms y = (M'.states σ).values sl := by
  obtain ⟨ins, c1, c2, h1, h2, _, h3⟩ := analyseDocument_end h
  obtain ⟨g1, g2, _⟩ := (valueSlots_judge globals { next := first }).post _ h1
  have w : c1.WF := g1.wf (fun x hx => by cases hx)
  have tl : Stmt.tailsAll (Raw True) children :=
    (tailsAll_iff children).2 (fun s hs => Stmt.raw_tails s ⟨trivial, hu s hs⟩)
  obtain ⟨st, _⟩ := analyseAll_post src found_any (N := True) (fun _ _ => trivial) children c1 w tl _ h2
  obtain ⟨new, e, _⟩ := st.binds
  have hn : (doc.slotsOut.map Prod.fst).Nodup := by
    rw [h3, List.map_map]
    exact Dict.nodup_update (d := ([] : Dict Str SlotInfo)) (by simp [Dict.keys]) _
  have hget : ∀ y, Dict.get? doc.slotsOut y = (lookupBind new y).map (·.id) := by
    intro y
    rw [h3, get?_map_id, get?_update_last, e, List.drop_left]
    simp [Dict.get?]
  have hsyms : (syms.map Prod.fst).Nodup ∧ ∀ y, Dict.get? syms y = (Dict.get? doc.slotsOut y).bind (M'.states σ).values := by
    unfold translDocument at hrun
    obtain ⟨_, M1, _, hrun⟩ := Comp.bind_eq_ok.1 hrun
    obtain ⟨_, M2, _, hrun⟩ := Comp.bind_eq_ok.1 hrun
    obtain ⟨_, M3, _, hrun⟩ := Comp.bind_eq_ok.1 hrun
    obtain ⟨_, M4, _, hrun⟩ := Comp.bind_eq_ok.1 hrun
    obtain ⟨_, M5, _, hrun⟩ := Comp.bind_eq_ok.1 hrun
    obtain ⟨d, M6, hr, hrun⟩ := Comp.bind_eq_ok.1 hrun
    cases hrun
    obtain ⟨d', k1, _, k3⟩ := readSymbols_spec (X := X) σ doc.slotsOut M5
    rw [k1] at hr
    cases hr
    exact k3 hn
  have hin : ∀ y ∈ doc.slotsOut.map Prod.fst, ∃ i, lookupBind c2.binds y = some i ∧ Dict.get? syms y = (M'.states σ).values i.id := by
    intro y hy
    have hs : (Dict.get? doc.slotsOut y).isSome := (Dict.get?_isSome_iff _ _).2 hy
    rw [hget] at hs
    cases hl : lookupBind new y with
    | none => rw [hl] at hs; cases hs
    | some i =>
      refine ⟨i, by rw [e, lookupBind_app, hl]; rfl, ?_⟩
      rw [hsyms.2, hget, hl]; rfl
  have more : ∀ (u u' : Expr), (analyseExpr c2.binds u : Except (AErr I) _) = .ok u' →
      ∃ doc', analyseDocument src first globals (children ++ [.exprBlock u]) = .ok doc' ∧ doc'.children = doc.children ++ [.exprBlock u'] := by
    intro u u' hu'
    have : analyseAll src (children ++ [.exprBlock u]) c1 = .ok (doc.children ++ [.exprBlock u'], c2) := by
      rw [analyseAll_append, h2]
      show (analyseAll src [.exprBlock u] c2 >>= _) = _
      simp only [analyseAll, analyse, hu']
      rfl
    refine ⟨?_, ?_, ?_⟩
    · exact { slotsIn := ins.map Prod.snd, children := doc.children ++ [.exprBlock u'], slotsOut := doc.slotsOut }
    · unfold analyseDocument
      rw [h1]
      show (analyseAll src (children ++ [.exprBlock u]) c1 >>= _) = _
      rw [this, h3]
      rfl
    · rfl
  refine ⟨hsyms.1, fun y hy => ?_, fun x hx => ?_, fun y hy => ?_⟩
  · rw [hsyms.2, (Dict.get?_eq_none_iff _ _).2 hy]; rfl
  · obtain ⟨i, hi, hv⟩ := hin _ hx
    obtain ⟨doc', k1, k2⟩ := more (.varUse x none) (.varUse x (some i.id)) (by simp only [analyseExpr, resolve, hi]; rfl)
    exact ⟨i.id, doc', k1, k2, hv⟩
  · obtain ⟨i, hi, hv⟩ := hin _ hy
    obtain ⟨doc', k1, k2⟩ := more (.tagUse y none) (.tagUse y (some i.id)) (by simp only [analyseExpr, resolve, hi]; rfl)
    exact ⟨i.id, doc', k1, k2, hv⟩

end

namespace VisibleEx

/-- The symbols that a script defines on its top level, those that it exports, those with a value, the values. -/
def exports (globals : Dict Str (Val Toy.Obj)) (script : Str) : Option (List (List Str)) :=
  match loadScript defaultMarks asciiUni (fun _ => none) script with
  | .ok ss =>
    match analyseDocument (I := Unit) ⟨fun _ => .error (), []⟩ 0 globals ss with
    | .ok doc =>
      match translDocument (envAt exPyEnv.ops (fun _ => exDefinition doc.children) 9) 0 doc (Toy.machine []) with
      | (.ok (_, syms), _) =>
        some [Stmt.definesAll (I := Unit) ⟨fun _ => .error (), []⟩ ss, doc.slotsOut.map Prod.fst,
          syms.map Prod.fst, syms.map (fun p => match p.2 with | .str s => s | _ => [])]
      | _ => none
    | .error _ => none
  | .error _ => none

def script : Str := s!!"$ x = 'a'\nif True\n    $ y = x\nelse\n    $ z = x\np\n    $ u = x\n$ x = 'b'\n"

end VisibleEx

/-- A variable of a tagged block is not exported, nor is one without a value; `x` has its final value. -/
example : VisibleEx.exports VisibleEx.globals VisibleEx.script =
    some [[s!!"$x", s!!"$y", s!!"$z", s!!"$x"], [s!!"$x", s!!"$y", s!!"$z"], [s!!"$x", s!!"$y"], [s!!"b", s!!"a"]] := by
  decide +kernel

/-- Assignment to a variable that has the name of a global symbol, here `$s`, is not exported. -/
theorem C97_not_in_general : VisibleEx.exports VisibleEx.globals (s!!"$ s = 'a'\n$ t = s\n") =
    some [[s!!"$s", s!!"$t"], [s!!"$t"], [s!!"$t"], [s!!"a"]] := by
  decide +kernel

/-- Hypotheses of `C97_exported_partial`. -/
example : (match loadScript (P := Toy.Obj) defaultMarks asciiUni (fun _ => none) VisibleEx.script with
    | .ok ss => ss.length == 5
    | .error _ => false) = true := by decide +kernel

end Verif
