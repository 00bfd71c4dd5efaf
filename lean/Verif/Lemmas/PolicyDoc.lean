import Verif.Lemmas.PolicyTransl
import Verif.Lemmas.Thins
import Verif.Lemmas.HeapTree
import Verif.Spec.Balanced

/-! Documents that keep to a policy. -/

namespace Verif
open Py Spec

section
variable {P X W : Type} {L : Policy P W}

theorem Spec.Policy.Fair.readSymbols {E : Env P X W} (F : L.Fair E) (σ : StateId) (n : Nat) (l : List (Str × Slot)) :
    Conforms L n (Policy.Entries L) (readSymbols σ l : Comp P X W _) := by
  induction l generalizing n with
  | nil => exact .pure (fun _ _ => by simp [Policy.Entries])
  | cons a l ih =>
    obtain ⟨sym, sl⟩ := a
    refine (Conforms.getSlot σ sl).bind (fun m o hm ho => (ih m).bind (fun k d hk hd => ?_))
    cases o with
    | none => exact .pure (fun _ hj => F.laws.entries hd hj)
    | some v =>
      refine .pure (fun j hj b hb => ?_)
      rcases List.mem_cons.1 hb with rfl | hb
      · exact F.laws.value (ho v rfl) (Nat.le_trans hk hj)
      · exact F.laws.value (hd b hb) hj

theorem Spec.Policy.Fair.document {E : Env P X W} (F : L.Fair E) (σ : StateId) (n : Nat) (doc : Document P) (h : L.Doc n doc) :
    Conforms L n (fun m r => (r.1 : Nat) < m ∧ Policy.Entries L m r.2) (translDocument E σ doc) := by
  have hcon : L.content .root none ([] : List (Str × Val P)) := ⟨by simp, trivial⟩
  have hnl : SpaceIndent (some ['\n']) := by
    intro c hc
    rw [List.mem_singleton.1 hc]
    decide
  refine (F.setSlots σ n h.slotsIn).bind (fun m1 _ h1 _ => (F.translAll σ n m1 doc.children h1 h.children).bind (fun m2 ns h2 hns =>
    (Conforms.newNode F.laws (cls := .root) (tag := none) (attrs := none) (kw := none) (ind := some ['\n']) hns hnl
      (by simp [Policy.Values]) (by simp [Policy.Entries]) hcon).bind (fun m3 root h3 hr =>
    (Conforms.readNode hr).bind (fun m4 d h4 hd => (Conforms.writeNode (Conforms.indented hd (by simp [SpaceIndent]))).bind
      (fun m5 _ h5 _ => (F.readSymbols σ m5 doc.slotsOut).bind (fun m6 syms h6 hs => .pure (fun m7 h7 =>
        ⟨Nat.lt_of_lt_of_le hr (Nat.le_trans h4 (Nat.le_trans h5 (Nat.le_trans h6 h7))), F.laws.entries hs h7⟩)))))))

/-! ### Trees -/

theorem unfoldsAll_exists {tagOf : P → TagObj} {strOf : Val P → Str} {f : Ref → DNode P} {rs : List Ref}
    (h : ∀ r ∈ rs, ∃ n, Unfolds tagOf strOf f r n) : ∃ ns, UnfoldsAll tagOf strOf f rs ns := by
  induction rs with
  | nil => exact ⟨[], .nil⟩
  | cons r rs ih =>
    obtain ⟨n, hn⟩ := h r (by simp)
    obtain ⟨ns, hns⟩ := ih (fun q hq => h q (by simp [hq]))
    exact ⟨n :: ns, .cons hn hns⟩

/-- Every node stands for a finite tree. -/
theorem memory_unfolds (tagOf : P → TagObj) (strOf : Val P → Str) {m : Mem P W} (h : L.Memory m) (r : Nat) (hr : r < m.next) :
    ∃ n, Unfolds tagOf strOf m.nodes r n := by
  induction r using Nat.strongRecOn with
  | ind r ih =>
    obtain ⟨ns, hns⟩ := unfoldsAll_exists (tagOf := tagOf) (strOf := strOf) (f := m.nodes) (rs := (m.nodes r).body) (fun q hq =>
      have := (h.nodes r hr).body q hq
      ih q this (Nat.lt_trans this hr))
    exact ⟨_, .mk hns⟩

/-! ### Texts -/

theorem free_laws {obj : Nat → P → Prop} {world : Nat → W → Prop} (ho : ∀ {n m p}, n ≤ m → obj n p → obj m p)
    (hw : ∀ {n m w}, n ≤ m → world n w → world m w) : (Policy.free obj world).Laws :=
  ⟨ho, hw, fun _ => trivial, fun _ _ => trivial, fun _ _ _ => trivial, fun _ _ => trivial⟩

theorem markup_laws {tagOf : P → TagObj} {names : Str → Prop} {obj : Nat → P → Prop} {world : Nat → W → Prop}
    (ho : ∀ {n m p}, n ≤ m → obj n p → obj m p) (hw : ∀ {n m w}, n ≤ m → world n w → world m w) :
    (Policy.markup tagOf names obj world).Laws :=
  ⟨ho, hw, fun h => SafeText.blank h, fun h g => SafeText.append h g, fun lead _ h => SafeText.layout lead h, fun h => h.elim⟩

theorem Spec.Balanced.append {names : Str → Prop} {a b : List Event} (ha : Balanced names a) (hb : Balanced names b) :
    Balanced names (a ++ b) := by
  induction ha with
  | nil => exact hb
  | chr c _ ih => exact .chr c ih
  | void hn hk _ ih => exact .void hn hk ih
  | @element n as inner ev hn hk hi _ _ ih =>
    have := Balanced.element hn hk hi ih
    simpa using this

theorem balanced_chars {names : Str → Prop} (s : Str) : Balanced names (s.map Event.chr) := by
  induction s with
  | nil => exact .nil
  | cons c s ih => exact .chr c ih

theorem mem_seenAttrs {mode : Mode} {l : List (Str × AttrVal)} {a : Str × Option Str} (h : a ∈ seenAttrs mode l) :
    ∃ b ∈ l, b.1 = a.1 := by
  induction l with
  | nil => simp [seenAttrs] at h
  | cons x l ih =>
    obtain ⟨k, v⟩ := x
    have next : a ∈ seenAttrs mode l → ∃ b ∈ (k, v) :: l, b.1 = a.1 := fun h =>
      let ⟨b, hb, e⟩ := ih h
      ⟨b, List.mem_cons_of_mem _ hb, e⟩
    cases v with
    | bool t =>
      cases t with
      | false => exact next h
      | true =>
        rcases List.mem_cons.1 h with rfl | h
        · exact ⟨_, List.mem_cons_self .., rfl⟩
        · exact next h
    | obj t =>
      rcases List.mem_cons.1 h with rfl | h
      · exact ⟨_, List.mem_cons_self .., rfl⟩
      · exact next h

/-- The node is well-formed, and its events are balanced. -/
def GoodNode (names : Str → Prop) (n : Node) : Prop := WellFormed n ∧ Balanced names (nodeEvents n)

theorem goodNodes {names : Str → Prop} {ns : List Node} (h : ∀ n ∈ ns, GoodNode names n) :
    WellFormedAll ns ∧ Balanced names (nodesEvents ns) := by
  induction ns with
  | nil => exact ⟨trivial, .nil⟩
  | cons n ns ih =>
    obtain ⟨h1, h2⟩ := h n (by simp)
    obtain ⟨h3, h4⟩ := ih (fun m hm => h m (by simp [hm]))
    exact ⟨⟨h1, h3⟩, h2.append h4⟩

theorem toNode_good {tagOf : P → TagObj} {strOf : Val P → Str} {names : Str → Prop} (hnames : ∀ n, names n → ValidName n)
    {obj : Nat → P → Prop} {world : Nat → W → Prop} {r : Nat} {d : DNode P}
    (h : (Policy.markup tagOf names obj world).NodeAt r d) {ns : List Node} (hns : ∀ n ∈ ns, GoodNode names n) :
    GoodNode names (toNode tagOf strOf d ns) := by
  obtain ⟨hw, hb⟩ := goodNodes hns
  obtain ⟨cls, tag, attrs, kw, body, outline, indent⟩ := d
  obtain ⟨hi, -, -, -, hc⟩ := h
  have key : ∀ a ∈ (kw.map (fun l => l.map (fun a => (a.1, attrVal strOf a.2)))).getD [], (∀ a ∈ kw.getD [], ValidName a.1) → ValidName a.1 := by
    intro a ha hk
    cases kw with
    | none => simp at ha
    | some l =>
      obtain ⟨b, hb, rfl⟩ := List.mem_map.1 ha
      exact hk b hb
  by_cases hcls : ∃ s, cls = .text s
  · obtain ⟨s, rfl⟩ := hcls
    exact ⟨⟨hi, hc⟩, balanced_chars _⟩
  · have hc' : (∀ a ∈ kw.getD [], ValidName a.1) ∧ (Policy.markup tagOf names obj world).nodeTag tag := by
      cases cls with
      | text s => exact absurd ⟨s, rfl⟩ hcls
      | _ => exact hc
    obtain ⟨hk, ht⟩ := hc'
    have hk' : ∀ mode, ∀ a ∈ seenAttrs mode ((kw.map (fun l => l.map (fun a => (a.1, attrVal strOf a.2)))).getD []), ValidName a.1 := by
      intro mode a ha
      obtain ⟨b, hb, e⟩ := mem_seenAttrs ha
      exact e ▸ key b hb hk
    have htag : ∀ t, tag.map (tagObj tagOf) = some t → t = .null ∨ (∃ s, t = .native s) ∨
        ∃ name void mode, t = .markup name void mode ∧ names name := by
      intro t e
      cases tag with
      | none => cases e
      | some x =>
        simp only [Option.map_some, Option.some.injEq] at e
        subst e
        cases x with
        | ext p =>
          rcases ht with h | h
          · exact .inl h
          · exact .inr (.inr h)
        | native _ => exact .inr (.inl ⟨_, rfl⟩)
        | null => exact .inl rfl
    have wf : SpaceIndent indent → WellFormed (toNode tagOf strOf (DNode.mk cls tag attrs kw body outline indent) ns) := by
      intro hi
      refine ⟨hi, ?_⟩
      generalize he : tag.map (tagObj tagOf) = t at htag
      cases cls with
      | text s => exact absurd ⟨s, rfl⟩ hcls
      | _ =>
        refine ⟨fun a ha => key a ha hk, hw, ?_⟩
        cases t with
        | none => trivial
        | some t =>
          rcases htag t rfl with rfl | ⟨s, rfl⟩ | ⟨n, v, mo, rfl, hn⟩
          · trivial
          · trivial
          · exact hnames n hn
    refine ⟨wf hi, ?_⟩
    generalize he : tag.map (tagObj tagOf) = t at htag
    simp only [toNode, he]
    have : ∀ cls', cls' = cls → Balanced names (nodeEvents (.mk cls' t (attrs.map (fun l => l.map (attrVal strOf)))
        (kw.map (fun l => l.map (fun a => (a.1, attrVal strOf a.2)))) ns outline indent)) := by
      intro cls' e
      cases cls' with
      | text s => exact absurd ⟨s, e.symm⟩ hcls
      | _ =>
        cases t with
        | none => exact hb
        | some t =>
          rcases htag t rfl with rfl | ⟨s, rfl⟩ | ⟨n, v, mo, rfl, hn⟩
          · exact hb
          · exact hb
          · cases v with
            | true => exact .void hn (hk' mo) .nil
            | false => exact .element hn (hk' mo) hb .nil
    exact this cls rfl

theorem markup_tree {tagOf : P → TagObj} {strOf : Val P → Str} {names : Str → Prop} (hnames : ∀ n, names n → ValidName n)
    {obj : Nat → P → Prop} {world : Nat → W → Prop} {m : Mem P W} (h : (Policy.markup tagOf names obj world).Memory m) (r : Nat)
    (hr : r < m.next) : ∃ n, Unfolds tagOf strOf m.nodes r n ∧ GoodNode names n := by
  induction r using Nat.strongRecOn with
  | ind r ih =>
    have all : ∀ rs : List Ref, (∀ q ∈ rs, q < r) → ∃ ns, UnfoldsAll tagOf strOf m.nodes rs ns ∧ ∀ n ∈ ns, GoodNode names n := by
      intro rs
      induction rs with
      | nil => exact fun _ => ⟨[], .nil, by simp⟩
      | cons q rs ih' =>
        intro hq
        obtain ⟨n, h1, h2⟩ := ih q (hq q (by simp)) (Nat.lt_trans (hq q (by simp)) hr)
        obtain ⟨ns, h3, h4⟩ := ih' (fun q hq' => hq q (by simp [hq']))
        refine ⟨n :: ns, .cons h1 h3, ?_⟩
        intro k hk
        rcases List.mem_cons.1 hk with rfl | hk
        · exact h2
        · exact h4 k hk
    obtain ⟨ns, h1, h2⟩ := all (m.nodes r).body (h.nodes r hr).body
    exact ⟨_, .mk h1, toNode_good hnames (h.nodes r hr) h2⟩

end
end Verif
