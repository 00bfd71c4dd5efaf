import Verif.Spec.Unfold
import Verif.Lemmas.Comp

/-! Trees of nodes on the heap, and the operations of the translator on them. -/

namespace Verif
open Py Spec

section
variable {P X W : Type} (tagOf : P → TagObj) (strOf : Val P → Str)

mutual
/-- `r` is the root of the tree `n`, which consists of the objects `F`; an object is created after those of
its body. -/
inductive HRep1 (f : Nat → DNode P) : Nat → Node → List Nat → Prop
  | mk {r : Nat} {d : DNode P} {ns : List Node} {F : List Nat} : f r = d → HRep f d.body ns F → (∀ q ∈ F, q < r) →
      HRep1 f r (toNode tagOf strOf d ns) (r :: F)
/-- The same for a list of trees without common objects. -/
inductive HRep (f : Nat → DNode P) : List Nat → List Node → List Nat → Prop
  | nil : HRep f [] [] []
  | cons {r : Nat} {n : Node} {rs : List Nat} {ns : List Node} {F G : List Nat} : HRep1 f r n F → HRep f rs ns G →
      (∀ q ∈ F, q ∉ G) → HRep f (r :: rs) (n :: ns) (F ++ G)
end

variable {tagOf strOf}

theorem HRep1.root_mem {f : Nat → DNode P} {r : Nat} {n : Node} {F : List Nat} (h : HRep1 tagOf strOf f r n F) :
    r ∈ F ∧ ∀ q ∈ F, q ≤ r := by
  cases h with
  | mk e h hr =>
    refine ⟨by simp, fun q hq => ?_⟩
    rcases List.mem_cons.1 hq with rfl | hq
    · exact Nat.le_refl _
    · exact Nat.le_of_lt (hr q hq)

mutual
theorem HRep1.frame {f g : Nat → DNode P} : ∀ {r : Nat} {n : Node} {F : List Nat}, HRep1 tagOf strOf f r n F →
    (∀ q ∈ F, g q = f q) → HRep1 tagOf strOf g r n F
  | r, _, _, .mk e h hr, hg =>
    .mk ((hg r (List.mem_cons_self ..)).trans e) (HRep.frame h (fun q hq => hg q (List.mem_cons_of_mem _ hq))) hr
theorem HRep.frame {f g : Nat → DNode P} : ∀ {rs : List Nat} {ns : List Node} {F : List Nat}, HRep tagOf strOf f rs ns F →
    (∀ q ∈ F, g q = f q) → HRep tagOf strOf g rs ns F
  | _, _, _, .nil, _ => .nil
  | _, _, _, .cons h h' hd, hg =>
    .cons (HRep1.frame h (fun q hq => hg q (List.mem_append_left _ hq)))
      (HRep.frame h' (fun q hq => hg q (List.mem_append_right _ hq))) hd
end

theorem HRep.append {f : Nat → DNode P} {rs rs' : List Nat} {ns ns' : List Node} {F G : List Nat}
    (h : HRep tagOf strOf f rs ns F) (h' : HRep tagOf strOf f rs' ns' G) (hd : ∀ q ∈ F, q ∉ G) :
    HRep tagOf strOf f (rs ++ rs') (ns ++ ns') (F ++ G) := by
  induction rs generalizing ns F with
  | nil => cases h with | nil => exact h'
  | cons r rs ih =>
    cases h with
    | cons h1 h2 h3 =>
      rw [List.cons_append, List.cons_append, List.append_assoc]
      refine .cons h1 (ih h2 (fun q hq => hd q (List.mem_append_right _ hq))) (fun q hq hq' => ?_)
      rcases List.mem_append.1 hq' with hq' | hq'
      · exact h3 q hq hq'
      · exact hd q (List.mem_append_left _ hq) hq'

theorem HRep.one {f : Nat → DNode P} {r : Nat} {n : Node} {F : List Nat} (h : HRep1 tagOf strOf f r n F) :
    HRep tagOf strOf f [r] [n] F := by
  have := HRep.cons h .nil (by simp)
  simpa using this

mutual
theorem HRep1.unfolds {f : Nat → DNode P} : ∀ {r : Nat} {n : Node} {F : List Nat}, HRep1 tagOf strOf f r n F →
    Unfolds tagOf strOf f r n
  | _, _, _, .mk e h _ => by subst e; exact .mk (HRep.unfolds h)
theorem HRep.unfolds {f : Nat → DNode P} : ∀ {rs : List Nat} {ns : List Node} {F : List Nat}, HRep tagOf strOf f rs ns F →
    UnfoldsAll tagOf strOf f rs ns
  | _, _, _, .nil => .nil
  | _, _, _, .cons h h' _ => .cons (HRep1.unfolds h) (HRep.unfolds h')
end

mutual
/-- An object is the root of at most one tree. -/
theorem unfolds_unique {f : Nat → DNode P} : ∀ {r : Nat} {n n' : Node}, Unfolds tagOf strOf f r n → Unfolds tagOf strOf f r n' → n = n'
  | _, _, _, .mk h, .mk h' => by rw [unfoldsAll_unique h h']
theorem unfoldsAll_unique {f : Nat → DNode P} : ∀ {rs : List Nat} {ns ns' : List Node}, UnfoldsAll tagOf strOf f rs ns →
    UnfoldsAll tagOf strOf f rs ns' → ns = ns'
  | _, _, _, .nil, .nil => rfl
  | _, _, _, .cons h1 h2, .cons h1' h2' => by rw [unfolds_unique h1 h1', unfoldsAll_unique h2 h2']
end

/-! ### Relative indentation -/

mutual
/-- `relative_indent` on trees. -/
def relNode (parent : Str) : Node → Node
  | .mk cls tag attrs kw body o ind =>
    match ind with
    | none => .mk cls tag attrs kw (relNodes parent body) o none
    | some i => .mk cls tag attrs kw body o (some (if i.take 1 = ['\n'] then i.drop parent.length else i))
def relNodes (parent : Str) : List Node → List Node
  | [] => []
  | n :: ns => relNode parent n :: relNodes parent ns
end

mutual
/-- `relative_indent` does not fail. -/
def relOk (parent : Str) : Node → Prop
  | .mk _ _ _ _ body _ ind =>
    match ind with
    | none => relOks parent body
    | some i => i.take 1 = ['\n'] → parent <+: i
def relOks (parent : Str) : List Node → Prop
  | [] => True
  | n :: ns => relOk parent n ∧ relOks parent ns
end

theorem relNodes_append (parent : Str) (a b : List Node) : relNodes parent (a ++ b) = relNodes parent a ++ relNodes parent b := by
  induction a with
  | nil => rfl
  | cons n ns ih => simp [relNodes, ih]

theorem relOks_append {parent : Str} {a b : List Node} : relOks parent (a ++ b) ↔ relOks parent a ∧ relOks parent b := by
  induction a with
  | nil => simp [relOks]
  | cons n ns ih => simp [relOks, ih, and_assoc]

/-- What the computations depend on besides the nodes. -/
structure Store (P W : Type) where
  states : StateId → TState P
  world : W

/-- The store of a machine. -/
def Machine.store (M : Machine P W) : Store P W := ⟨M.states, M.mem.world⟩

/-- A machine with another store. -/
def Machine.withStore (M : Machine P W) (A : Store P W) : Machine P W := ⟨A.states, { M.mem with world := A.world }⟩

theorem withStore_self (M : Machine P W) : M.withStore M.store = M := rfl
theorem withStore_store (M : Machine P W) (A : Store P W) : (M.withStore A).store = A := rfl
theorem withStore_nodes (M : Machine P W) (A : Store P W) : (M.withStore A).mem.nodes = M.mem.nodes := rfl
theorem withStore_next (M : Machine P W) (A : Store P W) : (M.withStore A).mem.next = M.mem.next := rfl

/-- A step changes the nodes `F` only. -/
structure Local (F : List Nat) (M M' : Machine P W) : Prop where
  store : M'.store = M.store
  next : M'.mem.next = M.mem.next
  nodes : ∀ q, q ∉ F → M'.mem.nodes q = M.mem.nodes q

theorem Local.refl (F : List Nat) (M : Machine P W) : Local F M M := ⟨rfl, rfl, fun _ _ => rfl⟩

theorem Local.trans {F : List Nat} {M M' M'' : Machine P W} (h : Local F M M') (h' : Local F M' M'') : Local F M M'' :=
  ⟨h'.store.trans h.store, h'.next.trans h.next, fun q hq => (h'.nodes q hq).trans (h.nodes q hq)⟩

theorem Local.widen {F G : List Nat} {M M' : Machine P W} (h : Local F M M') (h1 : ∀ q ∈ F, q ∈ G) : Local G M M' :=
  ⟨h.store, h.next, fun q hq => h.nodes q (fun hf => hq (h1 q hf))⟩

/-- Replace a node. -/
def putNode (M : Machine P W) (r : Nat) (d : DNode P) : Machine P W :=
  { M with mem := { M.mem with nodes := fun q => if q = r then d else M.mem.nodes q } }

theorem writeNode_run (r : Nat) (d : DNode P) (M : Machine P W) : (writeNode r d : Comp P X W Unit) M = (.ok (), putNode M r d) := rfl

theorem putNode_local {F : List Nat} {r : Nat} (d : DNode P) (M : Machine P W) (h1 : r ∈ F) : Local F M (putNode M r d) := by
  refine ⟨rfl, rfl, fun q hq => ?_⟩
  have : q ≠ r := by rintro rfl; exact hq h1
  simp [putNode, this]

theorem putNode_self (M : Machine P W) (r : Nat) (d : DNode P) : (putNode M r d).mem.nodes r = d := by simp [putNode]

theorem putNode_other (M : Machine P W) {r q : Nat} (d : DNode P) (h : q ≠ r) : (putNode M r d).mem.nodes q = M.mem.nodes q := by
  simp [putNode, h]

/-- A node is replaced by one with the same body. -/
theorem HRep1.put {M : Machine P W} {r : Nat} {n : Node} {F : List Nat} (h : HRep1 tagOf strOf M.mem.nodes r n F) {d : DNode P}
    (hb : d.body = (M.mem.nodes r).body) :
    HRep1 tagOf strOf (putNode M r d).mem.nodes r (toNode tagOf strOf d n.body) F := by
  cases h with
  | mk e h hr =>
    subst e
    rw [← hb] at h
    refine .mk (putNode_self M r d) (h.frame (fun q hq => putNode_other M d ?_)) hr
    have := hr q hq
    omega

mutual
theorem relativeIndent_rep (parent : Str) : ∀ {r : Nat} {n : Node} {F : List Nat} (M : Machine P W),
    HRep1 tagOf strOf M.mem.nodes r n F → relOk parent n → ∀ k, r < k →
    ∃ M', (relativeIndent k parent r : Comp P X W Unit) M = (.ok (), M') ∧ Local F M M' ∧
      HRep1 tagOf strOf M'.mem.nodes r (relNode parent n) F
  | r, _, _, M, .mk (d := d) (ns := ns) (F := F) e h hr, hok, k + 1, hk => by
    have hrun : (relativeIndent (k + 1) parent r : Comp P X W Unit) M =
        (match d.indent with
          | .none => forRefs (relativeIndent k parent) d.body
          | some ind =>
            if ind.take 1 = ['\n'] then
              if startsWith ind parent then writeNode r { d with indent := some (ind.drop parent.length) }
              else Comp.raise .assertion
            else pure () : Comp P X W Unit) M := by
      rw [relativeIndent, ← e]; rfl
    rw [hrun]
    cases hi' : d.indent with
    | none =>
      simp only [toNode, relOk, hi'] at hok
      obtain ⟨M', h1, h2, h3⟩ := relativeIndents_rep parent M h hok k (fun q hq => by have := hr q hq; omega)
      refine ⟨M', h1, h2.widen (fun q hq => List.mem_cons_of_mem _ hq), ?_⟩
      have hd : M'.mem.nodes r = d := (h2.nodes r (fun hf => absurd (hr r hf) (by omega))).trans e
      have := HRep1.mk (tagOf := tagOf) (strOf := strOf) hd h3 hr
      simpa [toNode, relNode, hi'] using this
    | some ind =>
      simp only [toNode, relOk, hi'] at hok
      by_cases hnl : ind.take 1 = ['\n']
      · have hp := hok hnl
        have hs : startsWith ind parent = true := by simpa [startsWith, List.isPrefixOf_iff_prefix] using hp
        simp only [hnl, hs, if_true]
        refine ⟨putNode M r { d with indent := some (ind.drop parent.length) }, rfl, putNode_local _ M (by simp), ?_⟩
        have := HRep1.put (HRep1.mk (tagOf := tagOf) (strOf := strOf) e h hr) (d := { d with indent := some (ind.drop parent.length) }) (by simp [e])
        simpa [toNode, relNode, hi', hnl, Node.body] using this
      · simp only [hnl, if_false]
        refine ⟨M, rfl, .refl _ _, ?_⟩
        have := HRep1.mk (tagOf := tagOf) (strOf := strOf) e h hr
        simpa [toNode, relNode, hi', hnl] using this
theorem relativeIndents_rep (parent : Str) : ∀ {rs : List Nat} {ns : List Node} {F : List Nat} (M : Machine P W),
    HRep tagOf strOf M.mem.nodes rs ns F → relOks parent ns → ∀ k, (∀ q ∈ F, q < k) →
    ∃ M', (forRefs (relativeIndent k parent) rs : Comp P X W Unit) M = (.ok (), M') ∧ Local F M M' ∧
      HRep tagOf strOf M'.mem.nodes rs (relNodes parent ns) F
  | _, _, _, M, .nil, _, _, _ => ⟨M, rfl, .refl _ _, .nil⟩
  | _, _, _, M, .cons (rs := rs) (F := F) (G := G) h h' hd, hok, k, hk => by
    simp only [relOks] at hok
    obtain ⟨M1, h1, h2, h3⟩ := relativeIndent_rep parent M h hok.1 k (hk _ (List.mem_append_left _ h.root_mem.1))
    have h'' := h'.frame (g := M1.mem.nodes) (fun q hq => h2.nodes q (fun hf => hd q hf hq))
    obtain ⟨M2, h4, h5, h6⟩ := relativeIndents_rep parent M1 h'' hok.2 k (fun q hq => hk q (List.mem_append_right _ hq))
    refine ⟨M2, ?_, (h2.widen (fun q hq => List.mem_append_left _ hq)).trans (h5.widen (fun q hq => List.mem_append_right _ hq)), ?_⟩
    · rw [forRefs, Comp.bind_ok h1]; exact h4
    · exact .cons (h3.frame (fun q hq => h5.nodes q (fun hf => hd q hq hf))) h6 hd
end

/-- `relative_indent` on all nodes of a body. -/
theorem relativeChildren_rep (ind : Str) {rs : List Nat} {ns : List Node} {F : List Nat} (M : Machine P W)
    (h : HRep tagOf strOf M.mem.nodes rs ns F) (hok : relOks ind ns) (hF : ∀ q ∈ F, q < M.mem.next) :
    ∃ M', (relativeChildren (some ind) rs : Comp P X W Unit) M = (.ok (), M') ∧ Local F M M' ∧
      HRep tagOf strOf M'.mem.nodes rs (relNodes ind ns) F := by
  obtain ⟨M', h1, h2, h3⟩ := relativeIndents_rep (X := X) ind M h hok (M.mem.next + 1) (fun q hq => by have := hF q hq; omega)
  exact ⟨M', h1, h2, h3⟩

/-- `set_indent` on trees. -/
def indentNode (ind : Str) : Node → Node
  | .mk cls tag attrs kw body o _ =>
    match cls with
    | .text s => .mk (.text s) tag attrs kw body o (some ind)
    | cls => .mk cls tag attrs kw (relNodes ind body) o (some ind)

/-- `set_indent` does not fail. -/
def indentOk (ind : Str) : Node → Prop
  | .mk cls _ _ _ body _ _ =>
    match cls with
    | .text _ => True
    | _ => relOks ind body

theorem setIndentNode_rep (ind : Str) {r : Nat} {n : Node} {F : List Nat} (M : Machine P W)
    (h : HRep1 tagOf strOf M.mem.nodes r n F) (hok : indentOk ind n) (hF : ∀ q ∈ F, q < M.mem.next) :
    ∃ M', (setIndentNode (some ind) r : Comp P X W Unit) M = (.ok (), M') ∧ Local F M M' ∧
      HRep1 tagOf strOf M'.mem.nodes r (indentNode ind n) F := by
  cases h with
  | mk e h hr =>
    rename_i d ns F
    have hput := HRep1.put (HRep1.mk (tagOf := tagOf) (strOf := strOf) e h hr) (d := { d with indent := some ind }) (by simp [e])
    have hloc : Local (r :: F) M (putNode M r { d with indent := some ind }) := putNode_local _ M (by simp)
    have hrun : (setIndentNode (some ind) r : Comp P X W Unit) M =
        (match d.cls with
          | .text _ => pure ()
          | _ => relativeChildren (some ind) d.body : Comp P X W Unit) (putNode M r { d with indent := some ind }) := by
      subst e; rfl
    rw [hrun]
    have h' := h.frame (g := (putNode M r { d with indent := some ind }).mem.nodes) (fun q hq => putNode_other M _ (by have := hr q hq; omega))
    have hnext : ∀ q ∈ F, q < (putNode M r { d with indent := some ind }).mem.next := fun q hq => hF q (List.mem_cons_of_mem _ hq)
    have hself := putNode_self M r { d with indent := some ind }
    generalize putNode M r { d with indent := some ind } = M1 at hput hloc h' hnext hself ⊢
    have step : ∀ c, d.cls = c → (∀ s, c ≠ .text s) → relOks ind ns →
        ∃ M', (relativeChildren (some ind) d.body : Comp P X W Unit) M1 = (.ok (), M') ∧ Local (r :: F) M M' ∧
          HRep1 tagOf strOf M'.mem.nodes r (indentNode ind (toNode tagOf strOf d ns)) (r :: F) := by
      intro c hc hn hok
      obtain ⟨M', h1, h2, h3⟩ := relativeChildren_rep (X := X) ind _ h' hok hnext
      refine ⟨M', h1, hloc.trans (h2.widen (fun q hq => List.mem_cons_of_mem _ hq)), ?_⟩
      have hd : M'.mem.nodes r = { d with indent := some ind } :=
        (h2.nodes r (fun hf => absurd (hr r hf) (by omega))).trans hself
      have := HRep1.mk (tagOf := tagOf) (strOf := strOf) hd h3 hr
      cases c <;> first | exact absurd rfl (hn _) | simpa [toNode, indentNode, hc] using this
    cases hc : d.cls with
    | text s =>
      refine ⟨_, rfl, hloc, ?_⟩
      simpa [toNode, indentNode, hc, Node.body] using hput
    | node => exact step _ hc (by simp) (by simpa only [toNode, indentOk, hc] using hok)
    | root => exact step _ hc (by simp) (by simpa only [toNode, indentOk, hc] using hok)

/-- `set_indent` on a list of trees. -/
theorem setIndent_rep (ind : Str) {rs : List Nat} {ns : List Node} {F : List Nat} (M : Machine P W)
    (h : HRep tagOf strOf M.mem.nodes rs ns F) (hok : ∀ n ∈ ns, indentOk ind n) (hF : ∀ q ∈ F, q < M.mem.next) :
    ∃ M', (setIndent ind rs : Comp P X W Unit) M = (.ok (), M') ∧ Local F M M' ∧
      HRep tagOf strOf M'.mem.nodes rs (ns.map (indentNode ind)) F := by
  induction rs generalizing ns F M with
  | nil => cases h with | nil => exact ⟨M, rfl, .refl _ _, .nil⟩
  | cons r rs ih =>
    cases h with
    | cons h1 h2 hd =>
      rename_i n ns F G
      obtain ⟨M1, a1, a2, a3⟩ := setIndentNode_rep (X := X) ind M h1 (hok _ (by simp)) (fun q hq => hF q (List.mem_append_left _ hq))
      have h2' := h2.frame (g := M1.mem.nodes) (fun q hq => a2.nodes q (fun hf => hd q hf hq))
      obtain ⟨M2, b1, b2, b3⟩ := ih M1 h2' (fun n hn => hok n (by simp [hn]))
        (fun q hq => by rw [a2.next]; exact hF q (List.mem_append_right _ hq))
      refine ⟨M2, ?_, (a2.widen (fun q hq => List.mem_append_left _ hq)).trans (b2.widen (fun q hq => List.mem_append_right _ hq)), ?_⟩
      · simp only [setIndent, forRefs]
        rw [Comp.bind_ok a1]; exact b1
      · exact .cons (a3.frame (fun q hq => b2.nodes q (fun hf => hd q hq hf))) b3 hd

/-- `set_outline` on trees. -/
def outlineNode (o : Bool) : Node → Node
  | .mk cls tag attrs kw body _ ind => .mk cls tag attrs kw body o ind

theorem setOutline_rep (o : Bool) {r : Nat} {n : Node} {F : List Nat} (M : Machine P W)
    (h : HRep1 tagOf strOf M.mem.nodes r n F) :
    ∃ M', (setOutline o r : Comp P X W Unit) M = (.ok (), M') ∧ Local F M M' ∧
      HRep1 tagOf strOf M'.mem.nodes r (outlineNode o n) F := by
  cases h with
  | mk e h hr =>
    rename_i d ns F
    have hput := HRep1.put (HRep1.mk (tagOf := tagOf) (strOf := strOf) e h hr) (d := { d with outline := o }) (by simp [e])
    refine ⟨putNode M r { d with outline := o }, by subst e; rfl, putNode_local _ M (by simp), ?_⟩
    simpa [toNode, outlineNode, Node.body] using hput

/-- A machine with one more node. -/
def addNode (M : Machine P W) (d : DNode P) : Machine P W :=
  { M with mem := { M.mem with nodes := fun q => if q = M.mem.next then d else M.mem.nodes q, next := M.mem.next + 1 } }

theorem allocNode_run (d : DNode P) (M : Machine P W) : (allocNode d : Comp P X W Ref) M = (.ok M.mem.next, addNode M d) := rfl

theorem addNode_rep {rs : List Nat} {ns : List Node} {F : List Nat} (M : Machine P W)
    (h : HRep tagOf strOf M.mem.nodes rs ns F) (hF : ∀ q ∈ F, q < M.mem.next) (d : DNode P) (hd : d.body = rs) :
    HRep1 tagOf strOf (addNode M d).mem.nodes M.mem.next (toNode tagOf strOf d ns) (M.mem.next :: F) := by
  subst hd
  refine .mk (by simp [addNode]) (h.frame (fun q hq => ?_)) hF
  have : q ≠ M.mem.next := by have := hF q hq; omega
  simp [addNode, this]

end
end Verif
