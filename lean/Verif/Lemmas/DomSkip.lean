import Verif.Lemmas.DomHeap

/-! Functional correctness of `copy` and `skip` on a heap. -/

namespace Verif
open Py

section
variable {V D : Type}

/-- `h'` contains all the objects of `h`. -/
def Ext (h h' : Heap V D) : Prop := ∀ (x : Nat) (o : HObj V D), h[x]? = some o → h'[x]? = some o

theorem ext_of_agree {h h' : Heap V D} (a : Agree h.length h h') : Ext h h' := by
  intro x o ho
  rw [a x (List.getElem?_eq_some_iff.mp ho).1, ho]

theorem RepAttrs.ext {h h' : Heap V D} (e : Ext h h') {a : Option Nat} {l : Option (List V)}
    (hr : RepAttrs h a l) : RepAttrs h' a l := by
  cases a <;> cases l <;> simp only [RepAttrs] at hr ⊢
  exact e _ _ hr

theorem RepKw.ext {h h' : Heap V D} (e : Ext h h') {a : Option Nat} {l : Option (Dict Str V)}
    (hr : RepKw h a l) : RepKw h' a l := by
  cases a <;> cases l <;> simp only [RepKw] at hr ⊢
  exact e _ _ hr

mutual
theorem RepNode.ext {h h' : Heap V D} (e : Ext h h') : (t : Tree (SelInfo V D)) → (r : Nat) →
    RepNode h t r → RepNode h' t r
  | .mk i b, r => by
    intro hr
    simp only [RepNode] at hr ⊢
    obtain ⟨a, k, d, ns, h1, h2, h3, h4, h5⟩ := hr
    exact ⟨a, k, d, ns, e _ _ h1, h2.ext e, h3.ext e, e _ _ h4, RepNodes.ext e b ns h5⟩
theorem RepNodes.ext {h h' : Heap V D} (e : Ext h h') : (ts : List (Tree (SelInfo V D))) →
    (ns : List Nat) → RepNodes h ts ns → RepNodes h' ts ns
  | [], [] => by simp [RepNodes]
  | t :: ts, n :: ns => by
    simp only [RepNodes]
    exact fun hr => ⟨RepNode.ext e t n hr.1, RepNodes.ext e ts ns hr.2⟩
  | [], _ :: _ => by simp [RepNodes]
  | _ :: _, [] => by simp [RepNodes]
end

/-- An optional address lies in `[lo, hi)`. -/
def OptIn (lo hi : Nat) (a : Option Nat) : Prop := ∀ x ∈ a, lo ≤ x ∧ x < hi

mutual
/-- The node object at `r` represents the given tree by objects in `[lo, hi)`, none of them shared
between different nodes. -/
def OwnNode (h : Heap V D) (lo hi : Nat) : Tree (SelInfo V D) → Nat → Prop
  | .mk i b, r => ∃ a k d ns m, lo ≤ r ∧ r < m ∧ lo ≤ d ∧ d < m ∧ OptIn lo m a ∧ OptIn lo m k ∧
      m ≤ hi ∧ h[r]? = some (.node i.tag a k (some d) i.rest) ∧
      RepAttrs h a i.attrs ∧ RepKw h k i.kwattrs ∧ h[d]? = some (.dom ns) ∧ OwnNodes h m hi b ns
def OwnNodes (h : Heap V D) (lo hi : Nat) : List (Tree (SelInfo V D)) → List Nat → Prop
  | [], [] => True
  | t :: ts, n :: ns => ∃ m, lo ≤ m ∧ m ≤ hi ∧ OwnNode h lo m t n ∧ OwnNodes h m hi ts ns
  | _, _ => False
end

mutual
theorem OwnNode.rep {h : Heap V D} {lo hi : Nat} : (t : Tree (SelInfo V D)) → (r : Nat) →
    OwnNode h lo hi t r → RepNode h t r
  | .mk i b, r => by
    simp only [OwnNode, RepNode]
    rintro ⟨a, k, d, ns, m, _, _, _, _, _, _, _, h1, h2, h3, h4, h5⟩
    exact ⟨a, k, d, ns, h1, h2, h3, h4, OwnNodes.rep b ns h5⟩
theorem OwnNodes.rep {h : Heap V D} {lo hi : Nat} : (ts : List (Tree (SelInfo V D))) →
    (ns : List Nat) → OwnNodes h lo hi ts ns → RepNodes h ts ns
  | [], [] => by simp [RepNodes]
  | t :: ts, n :: ns => by
    simp only [OwnNodes, RepNodes]
    rintro ⟨m, _, _, h1, h2⟩
    exact ⟨OwnNode.rep t n h1, OwnNodes.rep ts ns h2⟩
  | [], _ :: _ => by simp [OwnNodes]
  | _ :: _, [] => by simp [OwnNodes]
end

theorem RepAttrs.agree {h h' : Heap V D} {lo hi : Nat}
    (e : ∀ x, lo ≤ x → x < hi → h'[x]? = h[x]?) {a : Option Nat} {l : Option (List V)}
    (ha : OptIn lo hi a) (hr : RepAttrs h a l) : RepAttrs h' a l := by
  cases a <;> cases l <;> simp only [RepAttrs] at hr ⊢
  obtain ⟨h1, h2⟩ := ha _ rfl
  rw [e _ h1 h2, hr]

theorem RepKw.agree {h h' : Heap V D} {lo hi : Nat}
    (e : ∀ x, lo ≤ x → x < hi → h'[x]? = h[x]?) {a : Option Nat} {l : Option (Dict Str V)}
    (ha : OptIn lo hi a) (hr : RepKw h a l) : RepKw h' a l := by
  cases a <;> cases l <;> simp only [RepKw] at hr ⊢
  obtain ⟨h1, h2⟩ := ha _ rfl
  rw [e _ h1 h2, hr]

mutual
theorem OwnNode.agree {h h' : Heap V D} : (lo hi : Nat) → (t : Tree (SelInfo V D)) → (r : Nat) →
    (∀ x, lo ≤ x → x < hi → h'[x]? = h[x]?) → OwnNode h lo hi t r → OwnNode h' lo hi t r
  | lo, hi, .mk i b, r, e => by
    simp only [OwnNode]
    rintro ⟨a, k, d, ns, m, e1, e2, e3, e4, e5, e6, e7, h1, h2, h3, h4, h5⟩
    have e' : ∀ x, lo ≤ x → x < m → h'[x]? = h[x]? := fun x hx hx' => e x hx (by omega)
    exact ⟨a, k, d, ns, m, e1, e2, e3, e4, e5, e6, e7, by rw [e' r e1 e2, h1], h2.agree e' e5,
      h3.agree e' e6, by rw [e' d e3 e4, h4],
      OwnNodes.agree m hi b ns (fun x hx hx' => e x (by omega) hx') h5⟩
theorem OwnNodes.agree {h h' : Heap V D} : (lo hi : Nat) → (ts : List (Tree (SelInfo V D))) →
    (ns : List Nat) → (∀ x, lo ≤ x → x < hi → h'[x]? = h[x]?) → OwnNodes h lo hi ts ns →
    OwnNodes h' lo hi ts ns
  | _, _, [], [], _ => by simp [OwnNodes]
  | lo, hi, t :: ts, n :: ns, e => by
    simp only [OwnNodes]
    rintro ⟨m, e1, e2, h1, h2⟩
    exact ⟨m, e1, e2, OwnNode.agree lo m t n (fun x hx hx' => e x hx (by omega)) h1,
      OwnNodes.agree m hi ts ns (fun x hx hx' => e x (by omega) hx') h2⟩
  | _, _, [], _ :: _, _ => by simp [OwnNodes]
  | _, _, _ :: _, [], _ => by simp [OwnNodes]
end

theorem OwnNodes.lower {h : Heap V D} {lo lo' hi : Nat} (hl : lo' ≤ lo) :
    (ts : List (Tree (SelInfo V D))) → (ns : List Nat) → OwnNodes h lo hi ts ns →
    OwnNodes h lo' hi ts ns
  | [], [] => by simp [OwnNodes]
  | .mk i b :: ts, n :: ns => by
    simp only [OwnNodes, OwnNode]
    rintro ⟨m, e1, e2, ⟨a, k, d, ms, m', f1, f2, f3, f4, f5, f6, f7⟩, h2⟩
    exact ⟨m, by omega, e2, ⟨a, k, d, ms, m', by omega, f2, by omega, f4,
      fun x hx => ⟨by have := f5 x hx; omega, (f5 x hx).2⟩,
      fun x hx => ⟨by have := f6 x hx; omega, (f6 x hx).2⟩, f7⟩, h2⟩
  | [], _ :: _ => by simp [OwnNodes]
  | _ :: _, [] => by simp [OwnNodes]

/-! ### Copying -/

theorem copyAttrs_rep {h : Heap V D} {a : Option Nat} {l : Option (List V)} (hr : RepAttrs h a l) :
    ∃ a' h', copyAttrs a h = .ok (a', h') ∧ h.length ≤ h'.length ∧ Agree h.length h h' ∧
      OptIn h.length h'.length a' ∧ RepAttrs h' a' l := by
  cases a with
  | none =>
    cases l with
    | none => exact ⟨none, h, rfl, Nat.le_refl _, fun _ _ => rfl, by simp [OptIn], trivial⟩
    | some l => simp [RepAttrs] at hr
  | some r =>
    cases l with
    | none => simp [RepAttrs] at hr
    | some l =>
      simp only [RepAttrs] at hr
      refine ⟨some h.length, h ++ [.list l], by simp [copyAttrs, hr], by simp, agree_append _ _,
        ?_, by simp [RepAttrs]⟩
      intro x hx
      simp at hx
      subst hx
      simp

theorem copyKw_rep {h : Heap V D} {a : Option Nat} {l : Option (Dict Str V)} (hr : RepKw h a l) :
    ∃ a' h', copyAttrs a h = .ok (a', h') ∧ h.length ≤ h'.length ∧ Agree h.length h h' ∧
      OptIn h.length h'.length a' ∧ RepKw h' a' l := by
  cases a with
  | none =>
    cases l with
    | none => exact ⟨none, h, rfl, Nat.le_refl _, fun _ _ => rfl, by simp [OptIn], trivial⟩
    | some l => simp [RepKw] at hr
  | some r =>
    cases l with
    | none => simp [RepKw] at hr
    | some l =>
      simp only [RepKw] at hr
      refine ⟨some h.length, h ++ [.dict l], by simp [copyAttrs, hr], by simp, agree_append _ _,
        ?_, by simp [RepKw]⟩
      intro x hx
      simp at hx
      subst hx
      simp

theorem Agree.refl (n : Nat) (h : Heap V D) : Agree n h h := fun _ _ => rfl

theorem agree_set_ge {n x : Nat} {h : Heap V D} (hx : n ≤ x) (o : HObj V D) :
    Agree n h (h.set x o) := agree_set (Agree.refl n h) hx o

mutual
theorem copyNode_rep : (t : Tree (SelInfo V D)) → ∃ N, ∀ n, N ≤ n → ∀ (h : Heap V D) (r : Nat),
    RepNode h t r → ∃ r' h', copyNode n r h = .ok (r', h') ∧ h.length ≤ h'.length ∧
      Agree h.length h h' ∧ OwnNode h' h.length h'.length t r'
  | .mk i b => by
    obtain ⟨N, hN⟩ := copyNodes_rep b
    refine ⟨N + 3, ?_⟩
    intro n hn h r hr
    obtain ⟨n, rfl⟩ : ∃ m, n = m + 3 := ⟨n - 3, by omega⟩
    simp only [RepNode] at hr
    obtain ⟨a, k, d, ns, e1, e2, e3, e4, e5⟩ := hr
    -- positional attributes
    have x0 : Ext h (h ++ [.node i.tag a k (some d) i.rest]) := ext_of_agree (agree_append _ _)
    obtain ⟨a', h1, c1, l1, g1, o1, p1⟩ := copyAttrs_rep (e2.ext x0)
    simp only [List.length_append, List.length_singleton] at l1 g1 o1
    have x1 : Agree h.length h (h1.set h.length (.node i.tag a' k (some d) i.rest)) :=
      agree_set ((agree_append h _).trans g1 (by omega)) (Nat.le_refl _) _
    -- keyword attributes
    obtain ⟨k', h2, c2, l2, g2, o2, p2⟩ := copyKw_rep (e3.ext (ext_of_agree x1))
    simp only [List.length_set] at l2 g2 o2
    have x2 : Agree h.length h (h2.set h.length (.node i.tag a' k' (some d) i.rest)) :=
      agree_set (x1.trans g2 (by omega)) (Nat.le_refl _) _
    -- the body
    generalize hh2' : h2.set h.length (.node i.tag a' k' (some d) i.rest) = h2' at x2
    have l2' : h2'.length = h2.length := by rw [← hh2']; simp
    have e4' := ext_of_agree x2 _ _ e4
    have x3 : Agree h.length h (h2' ++ [.dom ns]) :=
      x2.trans (agree_append _ _) (by omega)
    obtain ⟨ns', h3, c3, l3, g3, q3⟩ := hN n (by omega) (h2' ++ [.dom ns]) ns
      (RepNodes.ext (ext_of_agree x3) b ns e5)
    simp only [List.length_append, List.length_singleton, l2'] at l3 g3 q3
    refine ⟨h.length, (h3.set h2.length (.dom ns')).set h.length
      (.node i.tag a' k' (some h2.length) i.rest), ?_, ?_, ?_, ?_⟩
    · simp only [copyNode, e1, c1, c2, hh2', copyBody, copyDom, e4', c3, l2']
    · simp; omega
    · exact agree_set (agree_set (x3.trans g3 (by omega)) (by omega) _) (Nat.le_refl _) _
    · simp only [List.length_set]
      simp only [OwnNode]
      have gl : ∀ x, h.length < x → x < h2.length →
          ((h3.set h2.length (.dom ns')).set h.length
            (.node i.tag a' k' (some h2.length) i.rest))[x]? = h2[x]? := by
        intro x hx hx'
        rw [List.getElem?_set_ne (by omega), List.getElem?_set_ne (by omega), g3 x (by omega),
          List.getElem?_append_left (by omega), ← hh2', List.getElem?_set_ne (by omega)]
      refine ⟨a', k', h2.length, ns', h2.length + 1, Nat.le_refl _, by omega, by omega, by omega,
        ?_, ?_, by omega, ?_, ?_, ?_, ?_, ?_⟩
      · intro x hx
        have := o1 x hx
        omega
      · intro x hx
        have := o2 x hx
        omega
      · rw [List.getElem?_set_self (by simp; omega)]
      · refine p1.agree (lo := h.length + 1) (hi := h1.length) ?_ o1
        intro x hx hx'
        rw [gl x (by omega) (by omega), g2 x (by omega), List.getElem?_set_ne (by omega)]
      · refine p2.agree (lo := h1.length) (hi := h2.length) ?_ o2
        intro x hx hx'
        rw [gl x (by omega) (by omega)]
      · rw [List.getElem?_set_ne (by omega), List.getElem?_set_self (by omega)]
      · refine OwnNodes.agree _ _ b ns' ?_ q3
        intro x hx hx'
        rw [List.getElem?_set_ne (by omega), List.getElem?_set_ne (by omega)]
theorem copyNodes_rep : (ts : List (Tree (SelInfo V D))) → ∃ N, ∀ n, N ≤ n →
    ∀ (h : Heap V D) (ns : List Nat), RepNodes h ts ns → ∃ ns' h',
      hmap (copyNode n) ns h = .ok (ns', h') ∧ h.length ≤ h'.length ∧
      Agree h.length h h' ∧ OwnNodes h' h.length h'.length ts ns'
  | [] => by
    refine ⟨0, ?_⟩
    intro n _ h ns hr
    cases ns with
    | nil => exact ⟨[], h, rfl, Nat.le_refl _, Agree.refl _ _, by simp [OwnNodes]⟩
    | cons _ _ => simp [RepNodes] at hr
  | t :: ts => by
    obtain ⟨N1, h1⟩ := copyNode_rep t
    obtain ⟨N2, h2⟩ := copyNodes_rep ts
    refine ⟨max N1 N2, ?_⟩
    intro n hn h ns hr
    cases ns with
    | nil => simp [RepNodes] at hr
    | cons r ns =>
      simp only [RepNodes] at hr
      obtain ⟨r', h', c1, l1, g1, o1⟩ := h1 n (by omega) h r hr.1
      obtain ⟨ns', h'', c2, l2, g2, o2⟩ := h2 n (by omega) h' ns
        (RepNodes.ext (ext_of_agree g1) ts ns hr.2)
      refine ⟨r' :: ns', h'', by simp [hmap, c1, c2], by omega, g1.trans g2 l1, ?_⟩
      simp only [OwnNodes]
      exact ⟨h'.length, l1, l2, OwnNode.agree _ _ t r' (fun x _ hx => g2 x hx) o1, o2⟩
end

theorem copyDom_rep (ts : List (Tree (SelInfo V D))) : ∃ N, ∀ n, N ≤ n → ∀ (h : Heap V D) (r : Nat),
    RepDom h ts r → ∃ d h' ns, copyDom n r h = .ok (d, h') ∧ d = h.length ∧
      Agree h.length h h' ∧ h'[d]? = some (.dom ns) ∧
      OwnNodes h' (h.length + 1) h'.length ts ns := by
  obtain ⟨N, hN⟩ := copyNodes_rep (V := V) (D := D) ts
  refine ⟨N + 1, ?_⟩
  intro n hn h r hr
  obtain ⟨n, rfl⟩ : ∃ m, n = m + 1 := ⟨n - 1, by omega⟩
  obtain ⟨ns, h1, h2⟩ := hr
  obtain ⟨ns', h', c1, l1, g1, o1⟩ := hN n (by omega) (h ++ [.dom ns]) ns
    (RepNodes.ext (ext_of_agree (agree_append _ _)) ts ns h2)
  simp only [List.length_append, List.length_singleton] at l1 g1 o1
  refine ⟨h.length, h'.set h.length (.dom ns'), ns', ?_, rfl, ?_, ?_, ?_⟩
  · simp only [copyDom, h1, c1]
  · exact agree_set ((agree_append h _).trans g1 (by omega)) (Nat.le_refl _) _
  · rw [List.getElem?_set_self (by omega)]
  · simp only [List.length_set]
    refine OwnNodes.agree _ _ ts ns' ?_ o1
    intro x hx hx'
    rw [List.getElem?_set_ne (by omega)]

/-! ### Filtering -/

mutual
/-- A property of the data of all the nodes of a tree. -/
def AllT {I : Type} (P : I → Prop) : Tree I → Prop
  | .mk i b => P i ∧ AllF P b
def AllF {I : Type} (P : I → Prop) : List (Tree I) → Prop
  | [] => True
  | t :: ts => AllT P t ∧ AllF P ts
end

variable (ne : V → V → Bool) (tag : TagArg) (attr : Option (Str × Option V))
  (attrs : Dict Str (Option V))

theorem readKw_rep {h : Heap V D} {k : Option Nat} {d : Option (Dict Str V)} (hr : RepKw h k d) :
    readKw h k = .ok d := by
  cases k <;> cases d <;> simp only [RepKw] at hr
  · rfl
  · simp [readKw, hr]

theorem heapTest_rep (c : Constr V) {h : Heap V D} {i : SelInfo V D} {b : List (Tree (SelInfo V D))} {r : Nat}
    (hr : RepNode h (.mk i b) r) :
    heapTest ne c h r = (match testNode ne c i with
      | .ok b => .ok b
      | .error .type => .error .type) := by
  simp only [RepNode] at hr
  obtain ⟨a, k, d, ns, e1, e2, e3, e4, e5⟩ := hr
  simp only [heapTest, e1, readKw_rep e3]
  rfl

/-- A node with its body pruned. -/
noncomputable def pruneBody {I : Type} (P : I → Prop) : Tree I → Tree I
  | .mk i b => .mk i (prune P b)

open Classical in
theorem prune_eq {I : Type} (P : I → Prop) (ts : List (Tree I)) :
    prune P ts = (ts.map (pruneBody P)).filter (fun t => ¬ P t.info) := by
  induction ts with
  | nil => simp [prune]
  | cons t ts ih =>
    obtain ⟨i, b⟩ := t
    simp only [prune, List.map_cons, pruneBody, List.filter_cons, Tree.info, ih]
    by_cases h : P i <;> simp [h]

open Classical in
theorem heapDrop_ok (hn : (Dict.keys attrs).Nodup) {h : Heap V D} {lo hi : Nat} :
    (ts : List (Tree (SelInfo V D))) → (ns : List Nat) → OwnNodes h lo hi ts ns →
    (∀ t ∈ ts, ¬ Untestable tag attr attrs t.info) → ∃ ns',
      heapDrop ne (constraint tag attr attrs) h ns = .ok ns' ∧
      OwnNodes h lo hi (ts.filter (fun t => ¬ Matches ne tag attr attrs t.info)) ns'
  | [], [] => by intro _ _; exact ⟨[], rfl, by simp [OwnNodes]⟩
  | .mk i b :: ts, n :: ns => by
    intro ho hu
    simp only [OwnNodes] at ho
    obtain ⟨m, l1, l2, o1, o2⟩ := ho
    obtain ⟨ns', d1, d2⟩ := heapDrop_ok hn ts ns o2 (fun t ht => hu t (by simp [ht]))
    obtain ⟨v, hv, hiff⟩ := testNode_testable ne tag attr attrs hn i (hu (.mk i b) (by simp))
    have ht := heapTest_rep ne (constraint tag attr attrs) (OwnNode.rep _ _ o1)
    rw [hv] at ht
    simp only at ht
    by_cases hm : Matches ne tag attr attrs i
    · refine ⟨ns', by simp [heapDrop, ht, d1, hiff.mpr hm], ?_⟩
      have : (Tree.mk i b :: ts).filter (fun t => ¬ Matches ne tag attr attrs t.info) =
          ts.filter (fun t => ¬ Matches ne tag attr attrs t.info) := by
        simp [List.filter_cons, Tree.info, hm]
      rw [this]
      exact OwnNodes.lower l1 _ _ d2
    · have hv' : v = false := by
        cases v with
        | false => rfl
        | true => exact absurd (hiff.mp rfl) hm
      refine ⟨n :: ns', by simp [heapDrop, ht, d1, hv'], ?_⟩
      have : (Tree.mk i b :: ts).filter (fun t => ¬ Matches ne tag attr attrs t.info) =
          .mk i b :: ts.filter (fun t => ¬ Matches ne tag attr attrs t.info) := by
        simp [List.filter_cons, Tree.info, hm]
      rw [this]
      simp only [OwnNodes]
      exact ⟨m, l1, l2, o1, d2⟩
  | [], _ :: _ => by simp [OwnNodes]
  | _ :: _, [] => by simp [OwnNodes]

theorem heapDrop_error (hn : (Dict.keys attrs).Nodup) {h : Heap V D} {lo hi : Nat} :
    (ts : List (Tree (SelInfo V D))) → (ns : List Nat) → OwnNodes h lo hi ts ns →
    (∃ t ∈ ts, Untestable tag attr attrs t.info) →
      heapDrop ne (constraint tag attr attrs) h ns = .error .type
  | [], [] => by simp
  | .mk i b :: ts, n :: ns => by
    intro ho hu
    simp only [OwnNodes] at ho
    obtain ⟨m, l1, l2, o1, o2⟩ := ho
    have ht := heapTest_rep ne (constraint tag attr attrs) (OwnNode.rep _ _ o1)
    by_cases hx : Untestable tag attr attrs i
    · rw [testNode_untestable ne tag attr attrs hn i hx] at ht
      simp only at ht
      simp [heapDrop, ht]
    · obtain ⟨v, hv, _⟩ := testNode_testable ne tag attr attrs hn i hx
      rw [hv] at ht
      simp only at ht
      have : ∃ t ∈ ts, Untestable tag attr attrs t.info := by
        obtain ⟨t, hm, ht⟩ := hu
        simp only [List.mem_cons] at hm
        rcases hm with rfl | hm
        · exact absurd ht hx
        · exact ⟨t, hm, ht⟩
      simp [heapDrop, ht, heapDrop_error hn ts ns o2 this]
  | [], _ :: _ => by simp [OwnNodes]
  | _ :: _, [] => by simp [OwnNodes]

/-- Equality of heaps outside of an interval. -/
def SameOut (lo hi : Nat) (h h' : Heap V D) : Prop := ∀ x, ¬ (lo ≤ x ∧ x < hi) → h'[x]? = h[x]?

abbrev Unt (i : SelInfo V D) : Prop := Untestable tag attr attrs i
abbrev Mat (i : SelInfo V D) : Prop := Matches ne tag attr attrs i

theorem replace_ok (hn : (Dict.keys attrs).Nodup) {h : Heap V D} {lo hi d : Nat} (hd : d < lo)
    (ts : List (Tree (SelInfo V D))) (ns : List Nat) (hdom : h[d]? = some (.dom ns))
    (ho : OwnNodes h lo hi (ts.map (pruneBody (Mat ne tag attr attrs))) ns)
    (hu : ∀ t ∈ ts, ¬ Unt tag attr attrs t.info) :
    ∃ h' ns', heapReplace ne (constraint tag attr attrs) d h = .ok h' ∧
      h'[d]? = some (.dom ns') ∧ (∀ x, x ≠ d → h'[x]? = h[x]?) ∧
      OwnNodes h' lo hi (prune (Mat ne tag attr attrs) ts) ns' := by
  obtain ⟨ns', d1, d2⟩ := heapDrop_ok ne tag attr attrs hn _ ns ho (by
    intro t ht
    simp only [List.mem_map] at ht
    obtain ⟨u, hu', rfl⟩ := ht
    obtain ⟨i, b⟩ := u
    exact hu (.mk i b) hu')
  refine ⟨h.set d (.dom ns'), ns', by simp [heapReplace, hdom, d1], ?_, ?_, ?_⟩
  · rw [List.getElem?_set_self (List.getElem?_eq_some_iff.mp hdom).1]
  · intro x hx
    rw [List.getElem?_set_ne (by omega)]
  · rw [prune_eq]
    refine OwnNodes.agree _ _ _ _ ?_ d2
    intro x hx _
    rw [List.getElem?_set_ne (by omega)]

mutual
theorem alterNode_own (hn : (Dict.keys attrs).Nodup) : (t : Tree (SelInfo V D)) →
    AllF (fun i => ¬ Unt tag attr attrs i) t.body → ∃ N, ∀ n, N ≤ n → ∀ (h : Heap V D) lo hi r,
    OwnNode h lo hi t r → ∃ h', alterNode ne (constraint tag attr attrs) n r h = .ok h' ∧
      SameOut lo hi h h' ∧ OwnNode h' lo hi (pruneBody (Mat ne tag attr attrs) t) r
  | .mk i b => by
    intro hall
    simp only [Tree.body] at hall
    obtain ⟨N, hN⟩ := alterNodes_own hn b hall
    refine ⟨N + 2, ?_⟩
    intro n hn' h lo hi r ho
    obtain ⟨n, rfl⟩ : ∃ m, n = m + 2 := ⟨n - 2, by omega⟩
    simp only [OwnNode] at ho
    obtain ⟨a, k, d, ns, m, e1, e2, e3, e4, e5, e6, e7, h1, h2, h3, h4, h5⟩ := ho
    cases hb : b with
    | nil =>
      subst hb
      cases ns with
      | cons _ _ => simp [OwnNodes] at h5
      | nil =>
        refine ⟨h, by simp [alterNode, h1, domTrue, h4], fun _ _ => rfl, ?_⟩
        simp only [pruneBody, prune, OwnNode]
        exact ⟨a, k, d, [], m, e1, e2, e3, e4, e5, e6, e7, h1, h2, h3, h4, h5⟩
    | cons t0 b0 =>
      rw [← hb]
      have hne : ns.isEmpty = false := by
        cases ns with
        | nil => subst hb; simp [OwnNodes] at h5
        | cons _ _ => rfl
      obtain ⟨hA, cA, sA, oA⟩ := hN n (by omega) h m hi ns h5
      have hdA : hA[d]? = some (.dom ns) := by rw [sA d (by omega), h4]
      have hu : ∀ t ∈ b, ¬ Unt tag attr attrs t.info := by
        clear hN h5 oA hb
        induction b with
        | nil => simp
        | cons t b ih =>
          intro u hu'
          simp only [AllF] at hall
          simp only [List.mem_cons] at hu'
          rcases hu' with rfl | hu'
          · obtain ⟨j, c⟩ := u
            simp only [AllT] at hall
            exact hall.1.1
          · exact ih hall.2 u hu'
      obtain ⟨hB, ns', cB, dB, sB, oB⟩ := replace_ok ne tag attr attrs hn e4 b ns hdA oA hu
      have sAll : ∀ x, lo ≤ x → x < m → x ≠ d → hB[x]? = h[x]? := by
        intro x hx hx' hxd
        rw [sB x hxd, sA x (by omega)]
      have hrd : r ≠ d := by
        intro e
        rw [e, h4] at h1
        simp at h1
      refine ⟨hB, ?_, ?_, ?_⟩
      · simp only [alterNode, h1, domTrue, h4, hne, Bool.not_false, alterDom, cA, cB]
      · intro x hx
        rw [sB x (by omega), sA x (by omega)]
      · simp only [pruneBody, OwnNode]
        refine ⟨a, k, d, ns', m, e1, e2, e3, e4, e5, e6, e7, ?_, ?_, ?_, dB, oB⟩
        · rw [sAll r e1 e2 hrd, h1]
        · cases a with
          | none => cases hh : i.attrs <;> simp_all [RepAttrs]
          | some x =>
            cases hh : i.attrs with
            | none => simp [RepAttrs, hh] at h2
            | some l =>
              simp only [RepAttrs, hh] at h2 ⊢
              obtain ⟨q1, q2⟩ := e5 x rfl
              rw [sAll x q1 q2 (by intro e; rw [e, h4] at h2; simp at h2), h2]
        · cases k with
          | none => cases hh : i.kwattrs <;> simp_all [RepKw]
          | some x =>
            cases hh : i.kwattrs with
            | none => simp [RepKw, hh] at h3
            | some l =>
              simp only [RepKw, hh] at h3 ⊢
              obtain ⟨q1, q2⟩ := e6 x rfl
              rw [sAll x q1 q2 (by intro e; rw [e, h4] at h3; simp at h3), h3]
theorem alterNodes_own (hn : (Dict.keys attrs).Nodup) : (ts : List (Tree (SelInfo V D))) →
    AllF (fun i => ¬ Unt tag attr attrs i) ts → ∃ N, ∀ n, N ≤ n → ∀ (h : Heap V D) lo hi ns,
    OwnNodes h lo hi ts ns → ∃ h',
      hforEach (alterNode ne (constraint tag attr attrs) n) ns h = .ok h' ∧
      SameOut lo hi h h' ∧ OwnNodes h' lo hi (ts.map (pruneBody (Mat ne tag attr attrs))) ns
  | [] => by
    intro _
    refine ⟨0, ?_⟩
    intro n _ h lo hi ns ho
    cases ns with
    | nil => exact ⟨h, rfl, fun _ _ => rfl, by simp [OwnNodes]⟩
    | cons _ _ => simp [OwnNodes] at ho
  | t :: ts => by
    intro hall
    simp only [AllF] at hall
    have hb : AllF (fun i => ¬ Unt tag attr attrs i) t.body := by
      obtain ⟨i, b⟩ := t
      simp only [AllT] at hall
      exact hall.1.2
    obtain ⟨N1, h1⟩ := alterNode_own hn t hb
    obtain ⟨N2, h2⟩ := alterNodes_own hn ts hall.2
    refine ⟨max N1 N2, ?_⟩
    intro n hn' h lo hi ns ho
    cases ns with
    | nil => simp [OwnNodes] at ho
    | cons r ns =>
      simp only [OwnNodes] at ho
      obtain ⟨m, l1, l2, o1, o2⟩ := ho
      obtain ⟨hA, cA, sA, oA⟩ := h1 n (by omega) h lo m r o1
      have o2' : OwnNodes hA m hi ts ns := OwnNodes.agree _ _ _ _ (fun x hx _ => sA x (by omega)) o2
      obtain ⟨hB, cB, sB, oB⟩ := h2 n (by omega) hA m hi ns o2'
      refine ⟨hB, by simp [hforEach, cA, cB], ?_, ?_⟩
      · intro x hx
        rw [sB x (by omega), sA x (by omega)]
      · simp only [List.map_cons, OwnNodes]
        exact ⟨m, l1, l2, OwnNode.agree _ _ _ _ (fun x _ hx => sB x (by omega)) oA, oB⟩
end

/-! Errors -/

theorem alterNodes_bodies (hn : (Dict.keys attrs).Nodup) : (ts : List (Tree (SelInfo V D))) →
    (∀ t ∈ ts, AllF (fun i => ¬ Unt tag attr attrs i) t.body) → ∃ N, ∀ n, N ≤ n →
    ∀ (h : Heap V D) lo hi ns, OwnNodes h lo hi ts ns → ∃ h',
      hforEach (alterNode ne (constraint tag attr attrs) n) ns h = .ok h' ∧
      SameOut lo hi h h' ∧ OwnNodes h' lo hi (ts.map (pruneBody (Mat ne tag attr attrs))) ns
  | [] => by
    intro _
    exact alterNodes_own ne tag attr attrs hn [] (by simp [AllF])
  | t :: ts => by
    intro hall
    obtain ⟨N1, h1⟩ := alterNode_own ne tag attr attrs hn t (hall t (by simp))
    obtain ⟨N2, h2⟩ := alterNodes_bodies hn ts (fun u hu => hall u (by simp [hu]))
    refine ⟨max N1 N2, ?_⟩
    intro n hn' h lo hi ns ho
    cases ns with
    | nil => simp [OwnNodes] at ho
    | cons r ns =>
      simp only [OwnNodes] at ho
      obtain ⟨m, l1, l2, o1, o2⟩ := ho
      obtain ⟨hA, cA, sA, oA⟩ := h1 n (by omega) h lo m r o1
      have o2' : OwnNodes hA m hi ts ns := OwnNodes.agree _ _ _ _ (fun x hx _ => sA x (by omega)) o2
      obtain ⟨hB, cB, sB, oB⟩ := h2 n (by omega) hA m hi ns o2'
      refine ⟨hB, by simp [hforEach, cA, cB], ?_, ?_⟩
      · intro x hx
        rw [sB x (by omega), sA x (by omega)]
      · simp only [List.map_cons, OwnNodes]
        exact ⟨m, l1, l2, OwnNode.agree _ _ _ _ (fun x _ hx => sB x (by omega)) oA, oB⟩

theorem exists_root (ts : List (Tree (SelInfo V D)))
    (hall : ¬ AllF (fun i => ¬ Unt tag attr attrs i) ts)
    (hdeep : ∀ t ∈ ts, AllF (fun i => ¬ Unt tag attr attrs i) t.body) :
    ∃ t ∈ ts, Untestable tag attr attrs t.info := by
  induction ts with
  | nil => simp [AllF] at hall
  | cons t ts ih =>
    by_cases ht : Untestable tag attr attrs t.info
    · exact ⟨t, by simp, ht⟩
    · have : ¬ AllF (fun i => ¬ Unt tag attr attrs i) ts := by
        intro hh
        apply hall
        simp only [AllF]
        refine ⟨?_, hh⟩
        have := hdeep t (by simp)
        obtain ⟨i, b⟩ := t
        simp only [AllT]
        exact ⟨ht, this⟩
      obtain ⟨u, hu, hu'⟩ := ih this (fun u hu => hdeep u (by simp [hu]))
      exact ⟨u, by simp [hu], hu'⟩

theorem alterDomList_err (hn : (Dict.keys attrs).Nodup) (ts : List (Tree (SelInfo V D)))
    (each : (∃ t ∈ ts, ¬ AllF (fun i => ¬ Unt tag attr attrs i) t.body) → ∃ N, ∀ n, N ≤ n →
      ∀ (h : Heap V D) lo hi ns, OwnNodes h lo hi ts ns →
        hforEach (alterNode ne (constraint tag attr attrs) n) ns h = .error .type) :
    ¬ AllF (fun i => ¬ Unt tag attr attrs i) ts → ∃ N, ∀ n, N ≤ n → ∀ (h : Heap V D) lo hi d ns,
    d < lo → h[d]? = some (.dom ns) → OwnNodes h lo hi ts ns →
      alterDom ne (constraint tag attr attrs) n d h = .error .type := by
    intro hall
    by_cases hdeep : ∀ t ∈ ts, AllF (fun i => ¬ Unt tag attr attrs i) t.body
    · -- only roots are untestable
      have hx : ∃ t ∈ ts, Untestable tag attr attrs t.info := exists_root tag attr attrs ts hall hdeep
      obtain ⟨N, hN⟩ := alterNodes_bodies ne tag attr attrs hn ts hdeep
      refine ⟨N + 1, ?_⟩
      intro n hn' h lo hi d ns hd hdom ho
      obtain ⟨n, rfl⟩ : ∃ m, n = m + 1 := ⟨n - 1, by omega⟩
      obtain ⟨hA, cA, sA, oA⟩ := hN n (by omega) h lo hi ns ho
      have hdA : hA[d]? = some (.dom ns) := by rw [sA d (by omega), hdom]
      have : heapDrop ne (constraint tag attr attrs) hA ns = .error .type := by
        refine heapDrop_error ne tag attr attrs hn _ ns oA ?_
        obtain ⟨t, ht, hu⟩ := hx
        refine ⟨pruneBody (Mat ne tag attr attrs) t, List.mem_map_of_mem ht, ?_⟩
        obtain ⟨i, b⟩ := t
        exact hu
      simp only [alterDom, hdom, cA, heapReplace, hdA, this]
    · obtain ⟨N, hN⟩ := each (by
        by_contra hcon
        apply hdeep
        intro t ht
        by_contra hbad
        exact hcon ⟨t, ht, hbad⟩)
      refine ⟨N + 1, ?_⟩
      intro n hn' h lo hi d ns hd hdom ho
      obtain ⟨n, rfl⟩ : ∃ m, n = m + 1 := ⟨n - 1, by omega⟩
      simp only [alterDom, hdom, hN n (by omega) h lo hi ns ho]

mutual
theorem alterNode_err (hn : (Dict.keys attrs).Nodup) : (t : Tree (SelInfo V D)) →
    ¬ AllF (fun i => ¬ Unt tag attr attrs i) t.body → ∃ N, ∀ n, N ≤ n → ∀ (h : Heap V D) lo hi r,
    OwnNode h lo hi t r → alterNode ne (constraint tag attr attrs) n r h = .error .type
  | .mk i b => by
    intro hall
    simp only [Tree.body] at hall
    obtain ⟨N, hN⟩ := alterDomList_err ne tag attr attrs hn b (alterEach_err hn b) hall
    refine ⟨N + 2, ?_⟩
    intro n hn' h lo hi r ho
    obtain ⟨n, rfl⟩ : ∃ m, n = m + 2 := ⟨n - 2, by omega⟩
    simp only [OwnNode] at ho
    obtain ⟨a, k, d, ns, m, e1, e2, e3, e4, e5, e6, e7, h1, h2, h3, h4, h5⟩ := ho
    have hne : ns.isEmpty = false := by
      cases ns with
      | nil =>
        cases b with
        | nil => simp [AllF] at hall
        | cons _ _ => simp [OwnNodes] at h5
      | cons _ _ => rfl
    have := hN (n + 1) (by omega) h m hi d ns e4 h4 h5
    simp only [alterNode, h1, domTrue, h4, hne, Bool.not_false, this]
theorem alterEach_err (hn : (Dict.keys attrs).Nodup) : (ts : List (Tree (SelInfo V D))) →
    (∃ t ∈ ts, ¬ AllF (fun i => ¬ Unt tag attr attrs i) t.body) → ∃ N, ∀ n, N ≤ n →
    ∀ (h : Heap V D) lo hi ns, OwnNodes h lo hi ts ns →
      hforEach (alterNode ne (constraint tag attr attrs) n) ns h = .error .type
  | [] => by simp
  | t :: ts => by
    intro hex
    by_cases ht : AllF (fun i => ¬ Unt tag attr attrs i) t.body
    · obtain ⟨N1, h1⟩ := alterNode_own ne tag attr attrs hn t ht
      obtain ⟨N2, h2⟩ := alterEach_err hn ts (by
        obtain ⟨u, hu, hx⟩ := hex
        simp only [List.mem_cons] at hu
        rcases hu with rfl | hu
        · exact absurd ht hx
        · exact ⟨u, hu, hx⟩)
      refine ⟨max N1 N2, ?_⟩
      intro n hn' h lo hi ns ho
      cases ns with
      | nil => simp [OwnNodes] at ho
      | cons r ns =>
        simp only [OwnNodes] at ho
        obtain ⟨m, l1, l2, o1, o2⟩ := ho
        obtain ⟨hA, cA, sA, oA⟩ := h1 n (by omega) h lo m r o1
        have o2' : OwnNodes hA m hi ts ns :=
          OwnNodes.agree _ _ _ _ (fun x hx _ => sA x (by omega)) o2
        simp [hforEach, cA, h2 n (by omega) hA m hi ns o2']
    · obtain ⟨N1, h1⟩ := alterNode_err hn t ht
      refine ⟨N1, ?_⟩
      intro n hn' h lo hi ns ho
      cases ns with
      | nil => simp [OwnNodes] at ho
      | cons r ns =>
        simp only [OwnNodes] at ho
        obtain ⟨m, l1, l2, o1, o2⟩ := ho
        simp [hforEach, h1 n hn' h lo m r o1]
end

end
end Verif
