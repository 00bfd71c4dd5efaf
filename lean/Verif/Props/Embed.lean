import Verif.Spec.Embed
import Verif.Lemmas.Control
import Verif.Props.Safety

/-! C110: blocks `@` embed the nodes of their values. -/

namespace Verif
open Py Spec

section
variable {P X W : Type}

theorem Spec.OnlyIndent.refl (M : Machine P W) : OnlyIndent M M := ⟨rfl, rfl, rfl, fun _ => rfl⟩

theorem Spec.OnlyIndent.trans {M M1 M2 : Machine P W} (h : OnlyIndent M M1) (h' : OnlyIndent M1 M2) : OnlyIndent M M2 :=
  ⟨h'.states.trans h.states, h'.world.trans h.world, h'.next.trans h.next, fun r => (h'.nodes r).trans (h.nodes r)⟩

theorem writeNode_onlyIndent (r : Ref) (ind : Option Str) (M : Machine P W) :
    ∃ M', (writeNode r { M.mem.nodes r with indent := ind } : Comp P X W Unit) M = (.ok (), M') ∧ OnlyIndent M M' := by
  refine ⟨_, rfl, rfl, rfl, rfl, ?_⟩
  intro q
  show { (if q = r then _ else M.mem.nodes q) with indent := none } = _
  split
  · subst q; rfl
  · rfl

theorem forRefs_onlyIndent {f : Ref → Comp P X W Unit} (h : ∀ r M, OnlyIndent M (f r M).2) (rs : List Ref)
    (M : Machine P W) : OnlyIndent M (forRefs f rs M).2 := by
  induction rs generalizing M with
  | nil => exact .refl M
  | cons r rs ih =>
    have h1 := h r M
    show OnlyIndent M (Comp.next _ (f r M)).2
    cases hf : f r M with
    | mk o M1 =>
      rw [hf] at h1
      cases o with
      | ok u => exact h1.trans (ih M1)
      | raise e => exact h1
      | timeout => exact h1

theorem relativeIndent_onlyIndent (k : Nat) (parent : Str) (r : Ref) (M : Machine P W) :
    OnlyIndent M ((relativeIndent k parent r : Comp P X W Unit) M).2 := by
  induction k generalizing r M with
  | zero => exact .refl M
  | succ k ih =>
    simp only [relativeIndent]
    rw [Comp.bind_ok (show (readNode r : Comp P X W _) M = (.ok (M.mem.nodes r), M) from rfl)]
    cases (M.mem.nodes r).indent with
    | none => exact forRefs_onlyIndent (fun r M => ih r M) _ _
    | some ind =>
      simp only
      split
      · split
        · obtain ⟨M', h, h'⟩ := writeNode_onlyIndent (X := X) r (some (ind.drop parent.length)) M
          rw [h]; exact h'
        · exact .refl M
      · exact .refl M

theorem setIndent_onlyIndent (ind : Str) (ns : List Ref) (M : Machine P W) :
    OnlyIndent M ((setIndent ind ns : Comp P X W Unit) M).2 := by
  refine forRefs_onlyIndent ?_ ns M
  intro r M
  obtain ⟨M1, h1, h2⟩ := writeNode_onlyIndent (X := X) r (some ind) M
  simp only [setIndentNode]
  rw [Comp.bind_ok (show (readNode r : Comp P X W _) M = (.ok (M.mem.nodes r), M) from rfl), Comp.bind_ok h1]
  cases (M.mem.nodes r).cls with
  | text s => exact h2
  | node => exact h2.trans (forRefs_onlyIndent (fun r M => relativeIndent_onlyIndent _ _ r M) _ M1)
  | root => exact h2.trans (forRefs_onlyIndent (fun r M => relativeIndent_onlyIndent _ _ r M) _ M1)

variable {E : Env P X W}

theorem holds_flattenVal {v : Val P} {M M' : Machine P W} {r : Res X (List Ref)} (h : Holds E v M r M') :
    flattenVal E v M = (r, M') := by
  cases h <;> first | rfl | assumption

theorem holdAll_flattenVals {vs : List (Val P)} {M M' : Machine P W} {nss : List (List Ref)} (h : HoldAll E vs M nss M') :
    flattenVals E vs M = (.ok nss.flatten, M') := by
  induction h with
  | nil M => rfl
  | cons h1 _ ih =>
    simp only [flattenVals]
    rw [Comp.bind_ok (holds_flattenVal h1), Comp.bind_ok ih]
    rfl

theorem flattenVals_stop {us vs : List (Val P)} {v : Val P} {M M1 M2 : Machine P W} {nss : List (List Ref)} {x : Exn X}
    (h1 : HoldAll E us M nss M1) (h2 : Holds E v M1 (.raise x) M2) :
    flattenVals E (us ++ v :: vs) M = (.raise x, M2) := by
  induction h1 with
  | nil M =>
    simp only [List.nil_append, flattenVals]
    rw [Comp.bind_raise (holds_flattenVal h2)]
  | cons h1 _ ih =>
    simp only [List.cons_append, flattenVals]
    rw [Comp.bind_ok (holds_flattenVal h1), Comp.bind_raise (ih h2)]

/-- The node is in no body. -/
theorem onlyIndent_top {M M' : Machine P W} (h : OnlyIndent M M') {r : Ref} (hr : TopNode M r) : TopNode M' r := by
  intro q
  have : (M'.mem.nodes q).body = (M.mem.nodes q).body := by have := congrArg DNode.body (h.nodes q); exact this
  rw [this]
  exact hr q

theorem forRefs_other {f : Ref → Comp P X W Unit} {r : Ref} (h1 : ∀ q M, OnlyIndent M (f q M).2)
    (h : ∀ q M, q ≠ r → TopNode M r → (f q M).2.mem.nodes r = M.mem.nodes r) (rs : List Ref) (hrs : r ∉ rs)
    (M : Machine P W) (hM : TopNode M r) : (forRefs f rs M).2.mem.nodes r = M.mem.nodes r := by
  induction rs generalizing M with
  | nil => rfl
  | cons q rs ih =>
    simp only [List.mem_cons, not_or] at hrs
    have a1 := h1 q M
    have a2 := h q M (fun e => hrs.1 e.symm) hM
    show (Comp.next _ (f q M)).2.mem.nodes r = _
    cases hf : f q M with
    | mk o M1 =>
      rw [hf] at a1 a2
      cases o with
      | ok u => exact (ih hrs.2 M1 (onlyIndent_top a1 hM)).trans a2
      | raise e => exact a2
      | timeout => exact a2

theorem writeNode_other {q r : Ref} (d : DNode P) (h : q ≠ r) (M : Machine P W) :
    ((writeNode q d : Comp P X W Unit) M).2.mem.nodes r = M.mem.nodes r :=
  if_neg (fun e => h e.symm)

theorem relativeIndent_other (k : Nat) (parent : Str) {q r : Ref} (hq : q ≠ r) (M : Machine P W) (hM : TopNode M r) :
    ((relativeIndent k parent q : Comp P X W Unit) M).2.mem.nodes r = M.mem.nodes r := by
  induction k generalizing q M with
  | zero => rfl
  | succ k ih =>
    simp only [relativeIndent]
    rw [Comp.bind_ok (show (readNode q : Comp P X W _) M = (.ok (M.mem.nodes q), M) from rfl)]
    have hb := hM q
    cases (M.mem.nodes q).indent with
    | none => exact forRefs_other (fun r M => relativeIndent_onlyIndent _ _ r M) (fun q M hq hM => ih hq M hM) _ hb _ hM
    | some ind =>
      simp only
      split
      · split
        · exact writeNode_other _ hq M
        · rfl
      · rfl

theorem relativeChildren_other (ind : Option Str) {r : Ref} (rs : List Ref) (h : r ∉ rs) (M : Machine P W) (hM : TopNode M r) :
    ((relativeChildren ind rs : Comp P X W Unit) M).2.mem.nodes r = M.mem.nodes r := by
  cases ind with
  | none => rfl
  | some i =>
    exact forRefs_other (fun r M => relativeIndent_onlyIndent _ _ r M) (fun q M hq hM => relativeIndent_other _ _ hq M hM) _ h _ hM

theorem setIndentNode_onlyIndent (ind : Str) (r : Ref) (M : Machine P W) :
    OnlyIndent M ((setIndentNode (some ind) r : Comp P X W Unit) M).2 := by
  obtain ⟨M1, h1, h2⟩ := writeNode_onlyIndent (X := X) r (some ind) M
  simp only [setIndentNode]
  rw [Comp.bind_ok (show (readNode r : Comp P X W _) M = (.ok (M.mem.nodes r), M) from rfl), Comp.bind_ok h1]
  cases (M.mem.nodes r).cls with
  | text s => exact h2
  | node => exact h2.trans (forRefs_onlyIndent (fun r M => relativeIndent_onlyIndent _ _ r M) _ M1)
  | root => exact h2.trans (forRefs_onlyIndent (fun r M => relativeIndent_onlyIndent _ _ r M) _ M1)

theorem setIndentNode_indent (ind : Str) {q r : Ref} (M : Machine P W) (hM : TopNode M r) :
    (((setIndentNode (some ind) q : Comp P X W Unit) M).2.mem.nodes r).indent =
      if q = r then some ind else (M.mem.nodes r).indent := by
  obtain ⟨M1, h1, h2⟩ := writeNode_onlyIndent (X := X) q (some ind) M
  have h3 : (M1.mem.nodes r).indent = if q = r then some ind else (M.mem.nodes r).indent := by
    split
    · subst q
      have : M1 = ((writeNode r { M.mem.nodes r with indent := some ind } : Comp P X W Unit) M).2 := by rw [h1]
      rw [this]
      show (if r = r then _ else _ : DNode P).indent = _
      rw [if_pos rfl]
    · rename_i hq
      have := writeNode_other (X := X) { M.mem.nodes q with indent := some ind } hq M
      rw [h1] at this
      rw [this]
  simp only [setIndentNode]
  rw [Comp.bind_ok (show (readNode q : Comp P X W _) M = (.ok (M.mem.nodes q), M) from rfl), Comp.bind_ok h1]
  have hM1 := onlyIndent_top h2 hM
  have hb := hM q
  cases (M.mem.nodes q).cls with
  | text s => exact h3
  | node => rw [← h3]; exact congrArg _ (relativeChildren_other _ _ hb M1 hM1)
  | root => rw [← h3]; exact congrArg _ (relativeChildren_other _ _ hb M1 hM1)

theorem setIndent_indent (ind : Str) {ns : List Ref} {r : Ref} {M M' : Machine P W} (hM : TopNode M r)
    (h : (setIndent ind ns : Comp P X W Unit) M = (.ok (), M')) :
    (M'.mem.nodes r).indent = if r ∈ ns then some ind else (M.mem.nodes r).indent := by
  induction ns generalizing M with
  | nil => cases h; simp
  | cons q ns ih =>
    simp only [setIndent, forRefs] at h
    rw [Comp.bind_eq_ok] at h
    obtain ⟨_, M1, h1, h2⟩ := h
    have a1 := setIndentNode_indent (X := X) ind (q := q) M hM
    have a2 := setIndentNode_onlyIndent (X := X) ind q M
    rw [h1] at a1 a2
    have := ih (onlyIndent_top a2 hM) h2
    rw [this, a1]
    by_cases hn : r ∈ ns
    · simp [hn]
    · by_cases hq : q = r
      · simp [hq]
      · have : ¬ r = q := fun e => hq e.symm
        simp [hn, hq, this]

theorem embed_placed {σ : StateId} {e : Expr} {v : Val P} {M M1 M2 : Machine P W} {ns : List Ref}
    (he : eval E σ e M = (.ok v, M1)) (hv : asSequence E v M1 = (.ok ns, M2)) : Inserted σ ns M2 (transl E σ (.embed e) M) := by
  simp only [transl]
  rw [Comp.bind_ok he, Comp.bind_ok hv]
  have h1 := setIndent_onlyIndent (X := X) (M2.states σ).indentation ns M2
  have h2 : (withIndent σ ns : Comp P X W _) M2 =
      Comp.next (fun _ => Comp.pure (some ns)) ((setIndent (M2.states σ).indentation ns : Comp P X W Unit) M2) := rfl
  rw [h2]
  cases hs : (setIndent (M2.states σ).indentation ns : Comp P X W Unit) M2 with
  | mk r M' =>
    rw [hs] at h1
    cases r with
    | ok u => exact ⟨h1, .inl ⟨rfl, fun r hr hn => (setIndent_indent _ hr hs).trans (if_pos hn)⟩⟩
    | raise x => exact ⟨h1, .inr (.inl (by rw [setIndent_raise _ _ _ _ _ hs]; rfl))⟩
    | timeout => exact ⟨h1, .inr (.inr rfl)⟩

/-- C110. `@` of a DOM inserts its nodes. -/
theorem C110_dom {σ : StateId} {e : Expr} {M M1 : Machine P W} {ns : List Ref} (he : eval E σ e M = (.ok (.dom ns), M1)) :
    Inserted σ ns M1 (transl E σ (.embed e) M) :=
  embed_placed he rfl

/-- C110. `@` of a node inserts that node. -/
theorem C110_node {σ : StateId} {e : Expr} {M M1 : Machine P W} {r : Ref} (he : eval E σ e M = (.ok (.node r), M1)) :
    Inserted σ [r] M1 (transl E σ (.embed e) M) :=
  embed_placed he rfl

/-- C110. `@` of another value inserts the nodes that its elements stand for, in their order; `list(..)` is called
once, and each element is looked at once. -/
theorem C110_sequence {σ : StateId} {e : Expr} {v : Val P} {M M1 M2 M3 : Machine P W} {vs : List (Val P)}
    {nss : List (List Ref)} (he : eval E σ e M = (.ok v, M1)) (hv : NoNodes v)
    (hl : runPy E (E.ops.toList v) M1 = (.ok vs, M2)) (hh : HoldAll E vs M2 nss M3) :
    Inserted σ nss.flatten M3 (transl E σ (.embed e) M) := by
  refine embed_placed he ?_
  have : asSequence E v M1 = Comp.bind (Comp.tryExcept (runPy E (E.ops.toList v)) (Comp.raise .typeErr)) (flattenVals E) M1 := by
    cases v <;> first | rfl | exact hv.elim
  rw [this]
  have : Comp.tryExcept (runPy E (E.ops.toList v)) (Comp.raise .typeErr) M1 = (.ok vs, M2) := by
    show Comp.handle _ (runPy E (E.ops.toList v) M1) = _
    rw [hl]; rfl
  show Comp.next _ _ = _
  rw [this]
  exact holdAll_flattenVals hh

/-- C110. A value that is no sequence is a `TypeError`, whatever the exception of `list(..)`, unless it is not an
ordinary one; nothing is inserted. -/
theorem C110_no_sequence {σ : StateId} {e : Expr} {v : Val P} {M M1 M2 : Machine P W} {x : Exn X}
    (he : eval E σ e M = (.ok v, M1)) (hv : NoNodes v) (hl : runPy E (E.ops.toList v) M1 = (.raise x, M2)) :
    transl E σ (.embed e) M = (.raise (if x.ordinary then .typeErr else x), M2) := by
  have : asSequence E v M1 = Comp.bind (Comp.tryExcept (runPy E (E.ops.toList v)) (Comp.raise .typeErr)) (flattenVals E) M1 := by
    cases v <;> first | rfl | exact hv.elim
  simp only [transl]
  rw [Comp.bind_ok he]
  refine Comp.bind_raise ?_
  rw [this]
  show Comp.next _ (Comp.handle _ (runPy E (E.ops.toList v) M1)) = _
  rw [hl]
  show Comp.next _ (if x.ordinary then _ else _) = _
  split <;> rfl

/-- C110. An element that is no node and has no nodes in it: its exception, after the elements before it have been
looked at. -/
theorem C110_wrong_element {σ : StateId} {e : Expr} {v u : Val P} {M M1 M2 M3 M4 : Machine P W} {us ws : List (Val P)}
    {nss : List (List Ref)} {x : Exn X} (he : eval E σ e M = (.ok v, M1)) (hv : NoNodes v)
    (hl : runPy E (E.ops.toList v) M1 = (.ok (us ++ u :: ws), M2)) (hh : HoldAll E us M2 nss M3)
    (hu : Holds E u M3 (.raise x) M4) : transl E σ (.embed e) M = (.raise x, M4) := by
  have : asSequence E v M1 = Comp.bind (Comp.tryExcept (runPy E (E.ops.toList v)) (Comp.raise .typeErr)) (flattenVals E) M1 := by
    cases v <;> first | rfl | exact hv.elim
  simp only [transl]
  rw [Comp.bind_ok he]
  refine Comp.bind_raise ?_
  rw [this]
  show Comp.next _ (Comp.handle _ (runPy E (E.ops.toList v) M1)) = _
  rw [hl]
  exact flattenVals_stop hh hu

/-- C110. Every value is covered: it holds nodes, or is a fault, or the run does not end. -/
theorem C110_covered (v : Val P) (M : Machine P W) : ∃ r M', Holds E v M r M' := by
  cases v with
  | py p => exact ⟨_, _, .opaque rfl⟩
  | none => exact ⟨_, _, .none M⟩
  | bool b => exact ⟨_, _, .bool b M⟩
  | str s => exact ⟨_, _, .str s M⟩
  | dom ns => exact ⟨_, _, .dom ns M⟩
  | node r => exact ⟨_, _, .node r M⟩
  | hyper h => exact ⟨_, _, .hyper h M⟩
  | embedded h st => exact ⟨_, _, .embedded h st M⟩
  | part f args kw => exact ⟨_, _, .part f args kw M⟩

/-- C110. Texts can always be inserted. -/
theorem C110_texts {σ : StateId} {e : Expr} {M M1 : Machine P W} {ns : List Ref} (he : eval E σ e M = (.ok (.dom ns), M1))
    (ht : ∀ r ∈ ns, ∃ s, (M1.mem.nodes r).cls = .text s) : (transl E σ (.embed e) M).1 = .ok (some ns) := by
  have key : ∀ (ns : List Ref) (M : Machine P W), (∀ r ∈ ns, ∃ s, (M.mem.nodes r).cls = .text s) → ∀ ind,
      ((setIndent ind ns : Comp P X W Unit) M).1 = .ok () := by
    intro ns
    induction ns with
    | nil => intro M _ ind; rfl
    | cons r ns ih =>
      intro M hM ind
      obtain ⟨s, hs⟩ := hM r List.mem_cons_self
      obtain ⟨M', h1, h2⟩ := writeNode_onlyIndent (X := X) r (some ind) M
      have : (setIndentNode (some ind) r : Comp P X W Unit) M = (.ok (), M') := by
        simp only [setIndentNode]
        rw [Comp.bind_ok (show (readNode r : Comp P X W _) M = (.ok (M.mem.nodes r), M) from rfl), Comp.bind_ok h1, hs]
        rfl
      simp only [setIndent, forRefs]
      rw [Comp.bind_ok this]
      refine ih M' ?_ ind
      intro q hq
      obtain ⟨s, hs⟩ := hM q (List.mem_cons_of_mem _ hq)
      have hc := congrArg DNode.cls (h2.nodes q)
      exact ⟨s, hc.trans hs⟩
  have h := key ns M1 ht (M1.states σ).indentation
  simp only [transl]
  rw [Comp.bind_ok he, Comp.bind_ok (show asSequence E (.dom ns) M1 = (.ok ns, M1) from rfl)]
  show (Comp.next (fun _ => Comp.pure (some ns)) ((setIndent (M1.states σ).indentation ns : Comp P X W Unit) M1)).1 = _
  cases hs : (setIndent (M1.states σ).indentation ns : Comp P X W Unit) M1 with
  | mk r M' =>
    rw [hs] at h
    cases h
    rfl

end

/-! Examples. -/

section
/-- Python in which every value is a sequence of a node, `None` and a DOM. -/
def exSeqEnv : Env Toy.Obj Nat Toy.World :=
  { exPyEnv with ops := { exPyEnv.ops with toList := fun _ => Toy.ret [.node 4, .none, .dom [7, 2]] } }

example (σ : StateId) (M : Toy.M) : Inserted σ [4, 7, 2] M (transl exSeqEnv σ (.embed (.number (s!!"1"))) M) :=
  C110_sequence (v := .py (.num 1)) (nss := [[4], [], [7, 2]]) rfl trivial rfl
    (.cons (.node 4 M) (.cons (.none M) (.cons (.dom _ M) (.nil M))))

-- a number: `TypeError`
example (M : Toy.M) : (transl exPyEnv 0 (.embed (.number (s!!"1"))) M).1 = .raise .typeErr :=
  congrArg Prod.fst (C110_no_sequence (v := .py (.num 1)) (x := .user 6) rfl trivial rfl)

-- texts and nodes of a hypertag's body, on the place of `@b` and with its indentation
example : exText [(s!!"%p", .py (.tag 0))] (s!!"% h @b\n  p\n    | one\n    @b\nh\n  | two\n  p | three") =
    some (s!!"<p>\n  one\n  two\n  <p>three</p>\n</p>") := by decide +kernel
example : exText [(s!!"%p", .py (.tag 0)), (s!!"$s", .py (.num 1))] (s!!"p\n  @s") = none := by decide +kernel

end
end Verif
