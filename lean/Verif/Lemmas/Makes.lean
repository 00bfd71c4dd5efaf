import Verif.Lemmas.DomText
import Verif.Lemmas.Control

/-! Computations that create trees of nodes. -/

namespace Verif
open Py Spec

section
variable {P X W α : Type}

/-- The number of nodes. -/
def Machine.top (M : Machine P W) : Nat := M.mem.next

/-- A computation that does not touch nodes. -/
def Evals (c : Comp P X W α) (A : Store P W) (v : α) (A' : Store P W) : Prop :=
  ∀ M : Machine P W, M.store = A → c M = (.ok v, M.withStore A')

theorem Evals.pure (a : α) (A : Store P W) : Evals (Pure.pure a : Comp P X W α) A a A := by
  rintro M rfl; rfl

theorem Evals.bind {β : Type} {c : Comp P X W α} {f : α → Comp P X W β} {A A1 A2 : Store P W} {a : α} {b : β} (h : Evals c A a A1)
    (h' : Evals (f a) A1 b A2) : Evals (c >>= f) A b A2 := by
  intro M hM
  rw [Comp.bind_ok (h M hM), h' (M.withStore A1) rfl]; rfl

/-- Trees of nodes that are handed to a computation. -/
structure Hand where
  refs : List Ref
  pre : List Node → Prop

/-- No nodes. -/
def Hand.none : Hand := ⟨[], fun _ => True⟩

variable (tagOf : P → TagObj) (strOf : Val P → Str)

/-- Given the trees `H`, the computation creates or modifies trees of nodes; these and the store have the property `Q`. -/
def Makes (H : Hand) (c : Comp P X W (List Ref)) (A : Store P W) (Q : List Node → Store P W → Prop) : Prop :=
  ∀ (M : Machine P W) (ns : List Node) (F : List Nat), M.store = A → HRep tagOf strOf M.mem.nodes H.refs ns F →
    (∀ q ∈ F, q < M.top) → H.pre ns → ∃ (rs' : List Nat) (M' : Machine P W) (ns' : List Node) (F' : List Nat),
    c M = (.ok rs', M') ∧ M.top ≤ M'.top ∧ (∀ q, q < M.top → q ∉ F → M'.mem.nodes q = M.mem.nodes q) ∧
    HRep tagOf strOf M'.mem.nodes rs' ns' F' ∧ (∀ q ∈ F', (q ∈ F ∨ M.top ≤ q) ∧ q < M'.top) ∧ Q ns' M'.store

/-- The computation transforms trees with the property `Q` to trees with the property `Q'`. -/
def Transforms (f : List Ref → Comp P X W (List Ref)) (A : Store P W) (Q : List Node → Prop) (Q' : List Node → Store P W → Prop) : Prop :=
  ∀ rs, Makes tagOf strOf ⟨rs, Q⟩ (f rs) A Q'

/-- The trees `H` are handed to one of two computations. -/
def Hand.Split (H H1 H2 : Hand) : Prop := (H1 = H ∧ H2 = .none) ∨ (H1 = .none ∧ H2 = H)

variable {tagOf strOf}

theorem Makes.mono {H : Hand} {c : Comp P X W (List Ref)} {A : Store P W} {Q Q' : List Node → Store P W → Prop} (h : Makes tagOf strOf H c A Q)
    (hq : ∀ ns B, Q ns B → Q' ns B) : Makes tagOf strOf H c A Q' := by
  intro M ns F hM h1 h2 h3
  obtain ⟨rs', M', ns', F', g1, g2, g3, g4, g5, g6⟩ := h M ns F hM h1 h2 h3
  exact ⟨rs', M', ns', F', g1, g2, g3, g4, g5, hq _ _ g6⟩

theorem Transforms.mono {f : List Ref → Comp P X W (List Ref)} {A : Store P W} {Q : List Node → Prop} {Q' R : List Node → Store P W → Prop}
    (h : Transforms tagOf strOf f A Q Q') (hq : ∀ ns B, Q' ns B → R ns B) : Transforms tagOf strOf f A Q R :=
  fun rs => (h rs).mono hq

/-- Trees that are not used. -/
theorem Makes.weaken {c : Comp P X W (List Ref)} {A : Store P W} {Q : List Node → Store P W → Prop} (h : Makes tagOf strOf .none c A Q)
    (H : Hand) : Makes tagOf strOf H c A Q := by
  intro M ns F hM h1 h2 h3
  obtain ⟨rs', M', ns', F', g1, g2, g3, g4, g5, g6⟩ := h M [] [] hM .nil (by simp) trivial
  exact ⟨rs', M', ns', F', g1, g2, fun q hq _ => g3 q hq (by simp), g4, fun q hq => ⟨.inr ((g5 q hq).1.resolve_left (by simp)), (g5 q hq).2⟩, g6⟩

/-- An evaluation before the rest. -/
theorem Makes.eval {H : Hand} {c : Comp P X W α} {f : α → Comp P X W (List Ref)} {A A1 : Store P W} {v : α} {Q : List Node → Store P W → Prop}
    (h : Evals c A v A1) (h' : Makes tagOf strOf H (f v) A1 Q) : Makes tagOf strOf H (c >>= f) A Q := by
  intro M ns F hM h1 h2 h3
  rw [Comp.bind_ok (h M hM)]
  exact h' _ ns F rfl h1 h2 h3

theorem Transforms.eval {c : List Ref → Comp P X W α} {f : α → List Ref → Comp P X W (List Ref)} {A A1 : Store P W} {v : α}
    {Q : List Node → Prop} {Q' : List Node → Store P W → Prop} (h : ∀ rs, Evals (c rs) A v A1) (h' : Transforms tagOf strOf (f v) A1 Q Q') :
    Transforms tagOf strOf (fun rs => c rs >>= fun v => f v rs) A Q Q' :=
  fun rs => Makes.eval (f := fun v => f v rs) (h rs) (h' rs)

theorem Makes.nil (H : Hand) (A : Store P W) {Q : List Node → Store P W → Prop} (h : Q [] A) :
    Makes tagOf strOf H (pure [] : Comp P X W (List Ref)) A Q := by
  intro M ns F hM _ _ _
  exact ⟨[], M, [], [], rfl, Nat.le_refl _, fun _ _ _ => rfl, .nil, by simp, hM ▸ h⟩

/-- The trees themselves. -/
theorem Makes.hand (H : Hand) (A : Store P W) {Q : List Node → Store P W → Prop} (h : ∀ ns, H.pre ns → Q ns A) :
    Makes tagOf strOf H (pure H.refs : Comp P X W (List Ref)) A Q := by
  intro M ns F hM hR hF hQ
  exact ⟨H.refs, M, ns, F, rfl, Nat.le_refl _, fun _ _ _ => rfl, hR, fun q hq => ⟨.inl hq, hF q hq⟩, hM ▸ h ns hQ⟩

theorem Transforms.pre {f : List Ref → Comp P X W (List Ref)} {A : Store P W} {Q R : List Node → Prop} {Q' : List Node → Store P W → Prop}
    (h : Transforms tagOf strOf f A Q Q') (hq : ∀ ns, R ns → Q ns) : Transforms tagOf strOf f A R Q' := by
  intro rs M ns F hM hR hF hQ
  exact h rs M ns F hM hR hF (hq ns hQ)

theorem Makes.trans {H : Hand} {c : Comp P X W (List Ref)} {f : List Ref → Comp P X W (List Ref)} {A : Store P W}
    {Q Q' : List Node → Store P W → Prop} (h : Makes tagOf strOf H c A Q)
    (h' : ∀ ns B, Q ns B → Transforms tagOf strOf f B (fun ms => ms = ns) Q') : Makes tagOf strOf H (c >>= f) A Q' := by
  intro M ns F hM hR hF hQ
  obtain ⟨rs1, M1, ns1, F1, h1, h3, h4, h5, h6, h7⟩ := h M ns F hM hR hF hQ
  obtain ⟨rs', M', ns', F', g1, g3, g4, g5, g6, g7⟩ := h' ns1 M1.store h7 rs1 M1 ns1 F1 rfl h5 (fun q hq => (h6 q hq).2) rfl
  refine ⟨rs', M', ns', F', (Comp.bind_ok h1).trans g1, by omega, fun q hq hf => ?_, g5, fun q hq => ?_, g7⟩
  · rw [g4 q (by omega) (fun hf' => ?_), h4 q hq hf]
    rcases (h6 q hf').1 with h | h
    · exact hf h
    · omega
  · obtain ⟨hq1, hq2⟩ := g6 q hq
    refine ⟨?_, hq2⟩
    rcases hq1 with hq1 | hq1
    · exact (h6 q hq1).1
    · exact .inr (by omega)

theorem Transforms.trans {f g : List Ref → Comp P X W (List Ref)} {A : Store P W} {Q : List Node → Prop} {Q1 Q' : List Node → Store P W → Prop}
    (h : Transforms tagOf strOf f A Q Q1) (h' : ∀ ns B, Q1 ns B → Transforms tagOf strOf g B (fun ms => ms = ns) Q') :
    Transforms tagOf strOf (fun rs => f rs >>= g) A Q Q' := fun rs => (h rs).trans h'

theorem Transforms.id (A : Store P W) (Q : List Node → Prop) :
    Transforms tagOf strOf (fun rs => (pure rs : Comp P X W (List Ref))) A Q (fun ns B => B = A ∧ Q ns) :=
  fun rs => Makes.hand ⟨rs, Q⟩ A (fun _ h => ⟨rfl, h⟩)

/-- One after the other. -/
theorem Makes.append {H H1 H2 : Hand} (hs : H.Split H1 H2) {c d : Comp P X W (List Ref)} {A : Store P W} {Q Q' : List Node → Store P W → Prop}
    (h : Makes tagOf strOf H1 c A Q) (h' : ∀ x B, Q x B → Makes tagOf strOf H2 d B (fun y B' => Q' (x ++ y) B')) :
    Makes tagOf strOf H (do let a ← c; let b ← d; return a ++ b) A Q' := by
  intro M ns F hM hR hF hQ
  rcases hs with ⟨rfl, rfl⟩ | ⟨rfl, rfl⟩
  · obtain ⟨rs1, M1, ns1, F1, h1, h3, h4, h5, h6, h7⟩ := h M ns F hM hR hF hQ
    obtain ⟨rs2, M2, ns2, F2, g1, g3, g4, g5, g6, g7⟩ := h' ns1 M1.store h7 M1 [] [] rfl .nil (by simp) trivial
    have g6' : ∀ q ∈ F2, M1.top ≤ q ∧ q < M2.top := fun q hq => ⟨(g6 q hq).1.resolve_left (by simp), (g6 q hq).2⟩
    refine ⟨rs1 ++ rs2, M2, ns1 ++ ns2, F1 ++ F2, ?_, by omega, fun q hq hf => ?_, ?_, fun q hq => ?_, g7⟩
    · rw [Comp.bind_ok h1, Comp.bind_ok g1]; rfl
    · rw [g4 q (by omega) (by simp), h4 q hq hf]
    · refine .append (h5.frame (fun q hq => g4 q (h6 q hq).2 (by simp))) g5 (fun q hq hq' => ?_)
      have := (h6 q hq).2
      have := (g6' q hq').1
      omega
    · rcases List.mem_append.1 hq with hq | hq
      · refine ⟨(h6 q hq).1, ?_⟩
        have := (h6 q hq).2; omega
      · have := g6' q hq
        exact ⟨.inr (by omega), by omega⟩
  · obtain ⟨rs1, M1, ns1, F1, h1, h3, h4, h5, h6, h7⟩ := h M [] [] hM .nil (by simp) trivial
    have h6' : ∀ q ∈ F1, M.top ≤ q ∧ q < M1.top := fun q hq => ⟨(h6 q hq).1.resolve_left (by simp), (h6 q hq).2⟩
    have hR1 : HRep tagOf strOf M1.mem.nodes H2.refs ns F := hR.frame (fun q hq => h4 q (hF q hq) (by simp))
    obtain ⟨rs2, M2, ns2, F2, g1, g3, g4, g5, g6, g7⟩ := h' ns1 M1.store h7 M1 ns F rfl hR1 (fun q hq => by have := hF q hq; omega) hQ
    refine ⟨rs1 ++ rs2, M2, ns1 ++ ns2, F1 ++ F2, ?_, by omega, fun q hq hf => ?_, ?_, fun q hq => ?_, g7⟩
    · rw [Comp.bind_ok h1, Comp.bind_ok g1]; rfl
    · rw [g4 q (by omega) hf, h4 q hq (by simp)]
    · refine .append (h5.frame (fun q hq => g4 q (h6' q hq).2 (fun hf => ?_))) g5 (fun q hq hq' => ?_)
      · have := hF q hf
        have := h6' q hq
        omega
      · have h8 := h6' q hq
        rcases (g6 q hq').1 with h9 | h9
        · have := hF q h9; omega
        · omega
    · rcases List.mem_append.1 hq with hq | hq
      · have := h6' q hq
        exact ⟨.inr this.1, by omega⟩
      · refine ⟨?_, (g6 q hq).2⟩
        rcases (g6 q hq).1 with h9 | h9
        · exact .inl h9
        · exact .inr (by omega)

/-! ### Particular computations -/

theorem makes_text (s : Str) (ind : Option Str) (A : Store P W) :
    Makes tagOf strOf .none (do let r ← newText s ind; return [r] : Comp P X W (List Ref)) A
      (fun ns B => B = A ∧ ns = [.mk (.text s) none none none [] false ind]) := by
  intro M ns F hM hR hF hQ
  have h := addNode_rep (tagOf := tagOf) (strOf := strOf) M .nil (by simp) { cls := .text s, indent := ind } rfl
  refine ⟨[M.mem.next], addNode M { cls := .text s, indent := ind }, _, _, rfl, Nat.le_succ _, fun q hq _ => ?_, .one h, ?_, hM, rfl⟩
  · have : q ≠ M.mem.next := by rintro rfl; exact absurd hq (Nat.lt_irrefl _)
    simp [addNode, this]
  · intro q hq
    simp only [List.mem_singleton] at hq
    subst hq
    exact ⟨.inr (Nat.le_refl _), Nat.lt_succ_self _⟩

/-- A node around the trees. -/
theorem transforms_node (cls : NodeClass) (tag : Option (NodeTag P)) (attrs : Option (List (Val P))) (kw : Option (List (Str × Val P)))
    (A : Store P W) (Q : List Node → Prop) :
    Transforms tagOf strOf (fun rs => do let r ← newNode cls rs none tag attrs kw; return [r] : List Ref → Comp P X W (List Ref)) A Q
      (fun ns B => B = A ∧ ∃ ms, ns = [.mk cls (tag.map (tagObj tagOf)) (attrs.map (fun l => l.map (attrVal strOf)))
        (kw.map (fun l => l.map (fun a => (a.1, attrVal strOf a.2)))) ms false none] ∧ Q ms) := by
  intro rs M ns F hM hR hF hQ
  have h := addNode_rep (tagOf := tagOf) (strOf := strOf) M hR hF { cls := cls, tag := tag, attrs := attrs, kwattrs := kw, body := rs } rfl
  refine ⟨[M.mem.next], addNode M { cls := cls, tag := tag, attrs := attrs, kwattrs := kw, body := rs }, _, _, rfl, Nat.le_succ _,
    fun q hq _ => ?_, .one h, ?_, hM, ns, rfl, hQ⟩
  · have : q ≠ M.mem.next := by rintro rfl; exact absurd hq (Nat.lt_irrefl _)
    simp [addNode, this]
  · intro q hq
    rcases List.mem_cons.1 hq with rfl | hq
    · exact ⟨.inr (Nat.le_refl _), Nat.lt_succ_self _⟩
    · exact ⟨.inl hq, Nat.lt_succ_of_lt (hF q hq)⟩

/-- A node with an indentation around the trees. -/
theorem transforms_node_at (cls : NodeClass) (ind : Str) (tag : Option (NodeTag P)) (attrs : Option (List (Val P)))
    (kw : Option (List (Str × Val P))) (A : Store P W) (Q : List Node → Prop) (hQ : ∀ ns, Q ns → relOks ind ns) :
    Transforms tagOf strOf (fun rs => do let r ← newNode cls rs (some ind) tag attrs kw; return [r] : List Ref → Comp P X W (List Ref)) A Q
      (fun ns B => B = A ∧ ∃ ms, ns = [.mk cls (tag.map (tagObj tagOf)) (attrs.map (fun l => l.map (attrVal strOf)))
        (kw.map (fun l => l.map (fun a => (a.1, attrVal strOf a.2)))) (relNodes ind ms) false (some ind)] ∧ Q ms) := by
  intro rs M ns F hM hR hF hq
  let d : DNode P := { cls := cls, tag := tag, attrs := attrs, kwattrs := kw, body := rs, indent := some ind }
  have h' : HRep tagOf strOf (addNode M d).mem.nodes rs ns F := hR.frame (fun q hq => by
    have : q ≠ M.mem.next := by rintro rfl; exact absurd (hF _ hq) (Nat.lt_irrefl _)
    simp [addNode, this])
  obtain ⟨M', h1, h2, h3⟩ := relativeChildren_rep (X := X) ind (addNode M d) h' (hQ ns hq) (fun q hq => Nat.lt_succ_of_lt (hF q hq))
  have htop : M'.top = M.top + 1 := h2.next
  have hd : M'.mem.nodes M.mem.next = d := by
    rw [h2.nodes M.mem.next (fun hf => absurd (hF _ hf) (Nat.lt_irrefl M.top))]
    simp [addNode]
  refine ⟨[M.mem.next], M', _, _, ?_, by omega, fun q hq hf => ?_,
    .one (.mk hd h3 hF), ?_, h2.store.trans hM, ns, rfl, hq⟩
  · show (newNode cls rs (some ind) tag attrs kw >>= _) M = _
    have : (newNode cls rs (some ind) tag attrs kw : Comp P X W Ref) M = (.ok M.mem.next, M') := by
      unfold newNode
      rw [Comp.bind_ok (allocNode_run _ M), Comp.bind_ok h1]; rfl
    rw [Comp.bind_ok this]; rfl
  · rw [h2.nodes q hf]
    have : q ≠ M.mem.next := by rintro rfl; exact absurd hq (Nat.lt_irrefl _)
    simp [addNode, this]
  · intro q hq
    rcases List.mem_cons.1 hq with rfl | hq
    · exact ⟨.inr (Nat.le_refl _), by rw [htop]; exact Nat.lt_succ_self _⟩
    · exact ⟨.inl hq, by rw [htop]; exact Nat.lt_succ_of_lt (hF q hq)⟩

theorem transforms_indent (ind : Str) (A : Store P W) (Q : List Node → Prop) (hQ : ∀ ns, Q ns → ∀ n ∈ ns, indentOk ind n) :
    Transforms tagOf strOf (fun rs => do setIndent ind rs; return rs : List Ref → Comp P X W (List Ref)) A Q
      (fun ns B => B = A ∧ ∃ ms, ns = ms.map (indentNode ind) ∧ Q ms) := by
  intro rs M ns F hM hR hF hq
  obtain ⟨M', h1, h2, h3⟩ := setIndent_rep (X := X) ind M hR (hQ ns hq) hF
  have htop : M'.top = M.top := h2.next
  refine ⟨rs, M', _, F, ?_, by omega, fun q _ hf => h2.nodes q hf, h3, fun q hq => ⟨.inl hq, ?_⟩, h2.store.trans hM, ns, rfl, hq⟩
  · exact (Comp.bind_ok h1).trans rfl
  · have := hF q hq; omega

theorem transforms_outline (o : Bool) (A : Store P W) (Q : List Node → Prop) :
    Transforms tagOf strOf (fun rs => do (match rs with | [] => pure () | r :: _ => setOutline o r); return rs : List Ref → Comp P X W (List Ref)) A Q
      (fun ns B => B = A ∧ ((ns = [] ∧ Q []) ∨ ∃ m ms, ns = outlineNode o m :: ms ∧ Q (m :: ms))) := by
  intro rs M ns F hM hR hF hq
  cases hR with
  | nil => exact ⟨[], M, [], [], rfl, Nat.le_refl _, fun _ _ _ => rfl, .nil, by simp, hM, .inl ⟨rfl, hq⟩⟩
  | cons h h' hd =>
    rename_i r n rs ns F G
    obtain ⟨M', h1, h2, h3⟩ := setOutline_rep (X := X) o M h
    have htop : M'.top = M.top := h2.next
    refine ⟨r :: rs, M', _, _, ?_, by omega, fun q _ hf => h2.nodes q (fun h => hf (List.mem_append_left _ h)),
      .cons h3 (h'.frame (fun q hq => h2.nodes q (fun hf => hd q hf hq))) hd, fun q hq => ⟨.inl hq, ?_⟩, h2.store.trans hM, .inr ⟨n, ns, rfl, hq⟩⟩
    · show (setOutline o r >>= _) M = _
      rw [Comp.bind_ok h1]; rfl
    · have := hF q hq; omega

end
end Verif
