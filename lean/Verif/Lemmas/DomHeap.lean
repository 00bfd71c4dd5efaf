import Verif.Spec.DomHeap
import Verif.Lemmas.DomSelect

/-! Proofs about copying and filtering DOM objects on a heap. -/

namespace Verif
open Py

section
variable {V D : Type}

/-! ### No object of the original is modified or shared -/

/-- `h'` has the same objects as `h` below address `n`. -/
def Agree (n : Nat) (h h' : Heap V D) : Prop := ∀ x, x < n → h'[x]? = h[x]?

/-- Objects at addresses `≥ n` refer only to addresses `≥ n`. -/
def Fresh (n : Nat) (h : Heap V D) : Prop :=
  ∀ x o, n ≤ x → h[x]? = some o → ∀ y ∈ o.refs, n ≤ y

theorem Agree.trans {n m : Nat} {h h1 h2 : Heap V D} (a : Agree n h h1) (b : Agree m h1 h2)
    (hnm : n ≤ m) : Agree n h h2 := by
  intro x hx
  rw [b x (by omega), a x hx]

theorem agree_append (h : Heap V D) (o : List (HObj V D)) : Agree h.length h (h ++ o) := by
  intro x hx
  simp [List.getElem?_append_left hx]

theorem Fresh.trans {n m : Nat} {h1 h2 : Heap V D} (hnm : n ≤ m) (f1 : Fresh n h1)
    (a : Agree m h1 h2) (f2 : Fresh m h2) : Fresh n h2 := by
  intro x o hx ho y hy
  by_cases hm : x < m
  · rw [a x hm] at ho
    exact f1 x o hx ho y hy
  · have := f2 x o (by omega) ho y hy
    omega

theorem fresh_of_length {n : Nat} {h : Heap V D} (hn : h.length ≤ n) : Fresh n h := by
  intro x o hx ho
  have := (List.getElem?_eq_some_iff.mp ho).1
  omega

/-- What a copying function guarantees. -/
def CopyOk (f : Nat → HeapM V D Nat) : Prop :=
  ∀ r h r' h', f r h = .ok (r', h') →
    h.length ≤ r' ∧ h.length ≤ h'.length ∧ Agree h.length h h' ∧ Fresh h.length h'

theorem hmap_copy {f : Nat → HeapM V D Nat} (hf : CopyOk f) (ns : List Nat) :
    ∀ h ns' h', hmap f ns h = .ok (ns', h') →
      (∀ y ∈ ns', h.length ≤ y) ∧ h.length ≤ h'.length ∧ Agree h.length h h' ∧
        Fresh h.length h' := by
  induction ns with
  | nil =>
    intro h ns' h' he
    simp only [hmap, Except.ok.injEq, Prod.mk.injEq] at he
    obtain ⟨rfl, rfl⟩ := he
    exact ⟨by simp, Nat.le_refl _, fun _ _ => rfl, fresh_of_length (Nat.le_refl _)⟩
  | cons n ns ih =>
    intro h ns' h' he
    simp only [hmap] at he
    split at he
    · simp at he
    · rename_i y h1 h1e
      split at he
      · simp at he
      · rename_i ys h2 h2e
        simp only [Except.ok.injEq, Prod.mk.injEq] at he
        obtain ⟨rfl, rfl⟩ := he
        obtain ⟨a1, a2, a3, a4⟩ := hf _ _ _ _ h1e
        obtain ⟨b1, b2, b3, b4⟩ := ih _ _ _ h2e
        refine ⟨?_, by omega, a3.trans b3 a2, a4.trans a2 b3 b4⟩
        intro z hz
        simp only [List.mem_cons] at hz
        rcases hz with rfl | hz
        · exact a1
        · have := b1 z hz
          omega

theorem copyAttrs_ok {r : Option Nat} {h h' : Heap V D} {r' : Option Nat}
    (he : copyAttrs r h = .ok (r', h')) :
    (∀ y ∈ r'.toList, h.length ≤ y) ∧ h.length ≤ h'.length ∧ Agree h.length h h' ∧
      Fresh h.length h' := by
  unfold copyAttrs at he
  have key : ∀ (o : HObj V D), o.refs = [] → Fresh h.length (h ++ [o]) := by
    intro o hr x o' hx ho y hy
    have hx' := (List.getElem?_eq_some_iff.mp ho).1
    simp only [List.length_append, List.length_singleton] at hx'
    have : x = h.length := by omega
    subst this
    simp at ho
    subst ho
    rw [hr] at hy
    simp at hy
  cases r with
  | none =>
    simp only [Except.ok.injEq, Prod.mk.injEq] at he
    obtain ⟨rfl, rfl⟩ := he
    exact ⟨by simp, Nat.le_refl _, fun _ _ => rfl, fresh_of_length (Nat.le_refl _)⟩
  | some r =>
    simp only at he
    split at he
    · simp only [Except.ok.injEq, Prod.mk.injEq] at he
      obtain ⟨rfl, rfl⟩ := he
      exact ⟨by simp, by simp, agree_append _ _, key _ rfl⟩
    · simp only [Except.ok.injEq, Prod.mk.injEq] at he
      obtain ⟨rfl, rfl⟩ := he
      exact ⟨by simp, by simp, agree_append _ _, key _ rfl⟩
    · simp at he

theorem agree_set {n x : Nat} {h h' : Heap V D} (a : Agree n h h') (hx : n ≤ x) (o : HObj V D) :
    Agree n h (h'.set x o) := by
  intro y hy
  rw [List.getElem?_set_ne (by omega)]
  exact a y hy

/-- Freshness after overwriting the first object of the region. -/
theorem fresh_set {n : Nat} {h : Heap V D} (f : Fresh (n + 1) h) (o : HObj V D)
    (ho : ∀ y ∈ o.refs, n ≤ y) : Fresh n (h.set n o) := by
  intro x o' hx hxo y hy
  by_cases he : n = x
  · subst he
    rw [List.getElem?_set_self (by
      have := (List.getElem?_eq_some_iff.mp hxo).1
      simpa using this)] at hxo
    cases hxo
    exact ho y hy
  · rw [List.getElem?_set_ne he] at hxo
    have := f x o' (by omega) hxo y hy
    omega

theorem fresh_set' {n : Nat} {h : Heap V D} (f : Fresh (n + 1) h) (o : HObj V D) :
    Fresh (n + 1) (h.set n o) := by
  intro x o' hx hxo y hy
  rw [List.getElem?_set_ne (by omega)] at hxo
  exact f x o' hx hxo y hy

mutual
theorem copyDom_ok : (n : Nat) → CopyOk (copyDom (V := V) (D := D) n)
  | 0 => by intro r h r' h' he; simp [copyDom] at he
  | n + 1 => by
    intro r h r' h' he
    simp only [copyDom] at he
    split at he
    · rename_i ns hns
      split at he
      · simp at he
      · rename_i ns' h1 h1e
        simp only [Except.ok.injEq, Prod.mk.injEq] at he
        obtain ⟨rfl, rfl⟩ := he
        obtain ⟨a1, a2, a3, a4⟩ := hmap_copy (copyNode_ok n) _ _ _ _ h1e
        simp only [List.length_append, List.length_singleton] at a1 a2 a3 a4
        refine ⟨Nat.le_refl _, by simp; omega, ?_, ?_⟩
        · exact agree_set ((agree_append h _).trans a3 (by omega)) (Nat.le_refl _) _
        · refine fresh_set a4 _ ?_
          intro y hy
          have := a1 y hy
          omega
    · simp at he
theorem copyNode_ok : (n : Nat) → CopyOk (copyNode (V := V) (D := D) n)
  | 0 => by intro r h r' h' he; simp [copyNode] at he
  | n + 1 => by
    intro r h r' h' he
    simp only [copyNode] at he
    split at he
    · rename_i tag attrs kwattrs body rest hr
      split at he
      · simp at he
      · rename_i attrs' h1 h1e
        obtain ⟨a1, a2, a3, a4⟩ := copyAttrs_ok h1e
        simp only [List.length_append, List.length_singleton] at a1 a2 a3 a4
        split at he
        · simp at he
        · rename_i kwattrs' h2 h2e
          obtain ⟨b1, b2, b3, b4⟩ := copyAttrs_ok h2e
          simp only [List.length_set] at b1 b2 b3 b4
          have g1 : Agree h.length h (h1.set h.length (.node tag attrs' kwattrs body rest)) :=
            agree_set ((agree_append h _).trans a3 (by omega)) (Nat.le_refl _) _
          have g2 : Agree h.length h h2 := g1.trans b3 (by omega)
          have f2 : Fresh (h.length + 1) h2 := (fresh_set' a4 _).trans a2 b3 b4
          have g3 : ∀ o, Agree h.length h (h2.set h.length o) := fun o =>
            agree_set g2 (Nat.le_refl _) o
          have f3 : ∀ o, Fresh (h.length + 1) (h2.set h.length o) := fun o => fresh_set' f2 o
          have hb : ∀ (body' : Option Nat) (h3 : Heap V D), h.length + 1 ≤ h3.length →
              Agree h.length h h3 → (body' = none → ∀ o, h3[h.length]? = some o →
                ∀ y ∈ o.refs, h.length ≤ y) → Fresh (h.length + 1) h3 →
              copyBody n tag attrs' kwattrs' rest h.length body' h3 = .ok (r', h') →
              h.length ≤ r' ∧ h.length ≤ h'.length ∧ Agree h.length h h' ∧ Fresh h.length h' := by
            intro body' h3 hl hag hnone hfr hcb
            cases body' with
            | none =>
              cases n <;>
              · simp only [copyBody, Except.ok.injEq, Prod.mk.injEq] at hcb
                obtain ⟨rfl, rfl⟩ := hcb
                refine ⟨Nat.le_refl _, by omega, hag, ?_⟩
                intro x o hx ho y hy
                by_cases hxe : x = h.length
                · subst hxe
                  exact hnone rfl o ho y hy
                · have := hfr x o (by omega) ho y hy
                  omega
            | some b =>
              cases n with
              | zero => simp [copyBody] at hcb
              | succ n =>
                simp only [copyBody] at hcb
                split at hcb
                · simp at hcb
                · rename_i b' h4 h4e
                  simp only [Except.ok.injEq, Prod.mk.injEq] at hcb
                  obtain ⟨rfl, rfl⟩ := hcb
                  obtain ⟨c1, c2, c3, c4⟩ := copyDom_ok n _ _ _ _ h4e
                  have g4 : Agree h.length h h4 := hag.trans c3 (by omega)
                  have f4 : Fresh (h.length + 1) h4 := hfr.trans (by omega) c3 c4
                  refine ⟨Nat.le_refl _, by simp; omega, agree_set g4 (Nat.le_refl _) _,
                    fresh_set f4 _ ?_⟩
                  intro y hy
                  simp only [HObj.refs, List.mem_append] at hy
                  rcases hy with (hy | hy) | hy
                  · have := a1 y hy; omega
                  · have := b1 y hy; omega
                  · simp at hy; omega
          refine hb body _ (by simp; omega) (g3 _) ?_ (f3 _) he
          intro hn o ho y hy
          rw [List.getElem?_set_self (by omega)] at ho
          cases ho
          simp only [HObj.refs, List.mem_append] at hy
          rcases hy with (hy | hy) | hy
          · have := a1 y hy; omega
          · have := b1 y hy; omega
          · simp [hn] at hy
    · simp at he
end

variable (ne : V → V → Bool) (c : Constr V)

theorem heapDrop_subset {h : Heap V D} {rs rs' : List Nat} (he : heapDrop ne c h rs = .ok rs') :
    ∀ y ∈ rs', y ∈ rs := by
  induction rs generalizing rs' with
  | nil =>
    simp only [heapDrop, Except.ok.injEq] at he
    subst he
    simp
  | cons r rs ih =>
    simp only [heapDrop] at he
    split at he
    · simp at he
    · split at he
      · simp at he
      · rename_i b _ rs2 h2
        simp only [Except.ok.injEq] at he
        subst he
        intro y hy
        have := ih h2
        split at hy
        · exact List.mem_cons_of_mem _ (this y hy)
        · simp only [List.mem_cons] at hy
          rcases hy with rfl | hy
          · simp
          · exact List.mem_cons_of_mem _ (this y hy)

/-- What an altering function guarantees on a closed region. -/
def AlterOk (n0 : Nat) (f : Nat → Heap V D → Except HeapErr (Heap V D)) : Prop :=
  ∀ r h h', n0 ≤ r → Fresh n0 h → f r h = .ok h' →
    h'.length = h.length ∧ Agree n0 h h' ∧ Fresh n0 h'

theorem hforEach_alter {n0 : Nat} {f : Nat → Heap V D → Except HeapErr (Heap V D)}
    (hf : AlterOk n0 f) (ns : List Nat) : ∀ h h', (∀ y ∈ ns, n0 ≤ y) → Fresh n0 h →
      hforEach f ns h = .ok h' → h'.length = h.length ∧ Agree n0 h h' ∧ Fresh n0 h' := by
  induction ns with
  | nil =>
    intro h h' _ hfr he
    simp only [hforEach, Except.ok.injEq] at he
    subst he
    exact ⟨rfl, fun _ _ => rfl, hfr⟩
  | cons n ns ih =>
    intro h h' hns hfr he
    simp only [hforEach] at he
    split at he
    · simp at he
    · rename_i h1 h1e
      obtain ⟨a1, a2, a3⟩ := hf _ _ _ (hns n (by simp)) hfr h1e
      obtain ⟨b1, b2, b3⟩ := ih _ _ (fun y hy => hns y (by simp [hy])) a3 he
      exact ⟨by omega, a2.trans b2 (Nat.le_refl _), b3⟩

theorem heapReplace_ok {n0 : Nat} : AlterOk n0 (heapReplace (D := D) ne c) := by
  intro r h h' hr hfr he
  simp only [heapReplace] at he
  split at he
  · rename_i ns hns
    split at he
    · simp at he
    · rename_i ns' hd
      simp only [Except.ok.injEq] at he
      subst he
      refine ⟨by simp, agree_set (fun _ _ => rfl) hr _, ?_⟩
      intro x o hx ho y hy
      by_cases hxr : r = x
      · subst hxr
        rw [List.getElem?_set_self (by
          have := (List.getElem?_eq_some_iff.mp ho).1
          simpa using this)] at ho
        cases ho
        exact hfr r _ hr hns y (heapDrop_subset ne c hd y hy)
      · rw [List.getElem?_set_ne hxr] at ho
        exact hfr x o hx ho y hy
  · simp at he

mutual
theorem alterDom_ok {n0 : Nat} : (n : Nat) → AlterOk n0 (alterDom (D := D) ne c n)
  | 0 => by intro r h h' _ _ he; simp [alterDom] at he
  | n + 1 => by
    intro r h h' hr hfr he
    simp only [alterDom] at he
    split at he
    · rename_i ns hns
      split at he
      · simp at he
      · rename_i h1 h1e
        obtain ⟨a1, a2, a3⟩ := hforEach_alter (alterNode_ok n) ns h h1
          (fun y hy => hfr r _ hr hns y hy) hfr h1e
        obtain ⟨b1, b2, b3⟩ := heapReplace_ok ne c _ _ _ hr a3 he
        exact ⟨by omega, a2.trans b2 (Nat.le_refl _), b3⟩
    · simp at he
theorem alterNode_ok {n0 : Nat} : (n : Nat) → AlterOk n0 (alterNode (D := D) ne c n)
  | 0 => by intro r h h' _ _ he; simp [alterNode] at he
  | n + 1 => by
    intro r h h' hr hfr he
    simp only [alterNode] at he
    split at he
    · rename_i tag a k body rest hn
      split at he
      · simp at he
      · rename_i b _
        exact alterDom_ok n _ _ _ (hfr r _ hr hn b (by simp [HObj.refs])) hfr he
      · simp only [Except.ok.injEq] at he
        subst he
        exact ⟨rfl, fun _ _ => rfl, hfr⟩
    · simp at he
end

theorem reach_fresh {n0 : Nat} {h : Heap V D} (hf : Fresh n0 h) {x y : Nat} (hr : Reach h x y)
    (hx : n0 ≤ x) : n0 ≤ y := by
  induction hr with
  | refl => exact hx
  | step ho hy _ ih => exact ih (hf _ _ hx ho _ hy)

end
end Verif
