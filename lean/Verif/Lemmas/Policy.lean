import Verif.Lemmas.Comp
import Verif.Lemmas.Frame
import Verif.Lemmas.TransFrame
import Verif.Spec.Policy

/-! Computations that keep to a policy. -/

namespace Verif
open Py Spec

section
variable {P X W α β : Type} {L : Policy P W}

/-- All values are proper. -/
def Policy.Values (L : Policy P W) (n : Nat) (vs : List (Val P)) : Prop := ∀ v ∈ vs, L.Value n v

/-- All values of a dictionary are proper. -/
def Policy.Entries (L : Policy P W) (n : Nat) (kw : List (Str × Val P)) : Prop := ∀ a ∈ kw, L.Value n a.2

/-- References to existing nodes. -/
def Refs (n : Nat) (rs : List Ref) : Prop := ∀ r ∈ rs, (r : Nat) < n

theorem Spec.Policy.Laws.value (hL : L.Laws) {n m : Nat} {v : Val P} (h : L.Value n v) (hn : n ≤ m) : L.Value m v := by
  induction h with
  | none => exact .none
  | bool b => exact .bool b
  | str s => exact .str s
  | py h => exact .py (hL.obj_mono hn h)
  | dom h => exact .dom (fun r hr => Nat.lt_of_lt_of_le (h r hr) hn)
  | node h => exact .node (Nat.lt_of_lt_of_le h hn)
  | hyper h => exact .hyper h
  | embedded h => exact .embedded h
  | part _ _ _ h1 h2 h3 => exact .part h1 h2 h3

theorem Spec.Policy.Laws.values (hL : L.Laws) {n m : Nat} {vs : List (Val P)} (h : Policy.Values L n vs) (hn : n ≤ m) :
    Policy.Values L m vs := fun v hv => hL.value (h v hv) hn

theorem Spec.Policy.Laws.entries (hL : L.Laws) {n m : Nat} {kw : List (Str × Val P)} (h : Policy.Entries L n kw) (hn : n ≤ m) :
    Policy.Entries L m kw := fun v hv => hL.value (h v hv) hn

theorem Refs.mono {n m : Nat} {rs : List Ref} (h : Refs n rs) (hn : n ≤ m) : Refs m rs :=
  fun r hr => Nat.lt_of_lt_of_le (h r hr) hn

theorem Refs.append {n : Nat} {as bs : List Ref} (ha : Refs n as) (hb : Refs n bs) : Refs n (as ++ bs) := by
  intro r hr
  rcases List.mem_append.1 hr with h | h
  · exact ha r h
  · exact hb r h

theorem Spec.Policy.Laws.node (hL : L.Laws) {n m : Nat} {d : DNode P} (h : L.NodeAt n d) (hn : n ≤ m) : L.NodeAt m d :=
  ⟨h.indent, fun q hq => Nat.lt_of_lt_of_le (h.body q hq) hn, fun v hv => hL.value (h.attrs v hv) hn,
    fun a ha => hL.value (h.kwattrs a ha) hn, h.content⟩

/-- The computation keeps the memory as it should be, if at least `n` nodes exist at its start; its result, if any,
satisfies `Q`. -/
def Conforms (L : Policy P W) (n : Nat) (Q : Nat → α → Prop) (c : Comp P X W α) : Prop :=
  ∀ M, L.Store M → n ≤ M.mem.next → L.Store (c M).2 ∧ M.mem.next ≤ (c M).2.mem.next ∧
    ∀ a, (c M).1 = .ok a → Q (c M).2.mem.next a

namespace Conforms

theorem mono {n m : Nat} {Q : Nat → α → Prop} {c : Comp P X W α} (h : Conforms L n Q c) (hn : n ≤ m) : Conforms L m Q c :=
  fun M hM hm => h M hM (Nat.le_trans hn hm)

theorem weaken {n : Nat} {Q R : Nat → α → Prop} {c : Comp P X W α} (h : Conforms L n Q c) (hQ : ∀ m a, n ≤ m → Q m a → R m a) :
    Conforms L n R c := fun M hM hm =>
  let ⟨h1, h2, h3⟩ := h M hM hm
  ⟨h1, h2, fun a ha => hQ _ a (Nat.le_trans hm h2) (h3 a ha)⟩

theorem any {n : Nat} {Q : Nat → α → Prop} {c : Comp P X W α} (h : Conforms L n Q c) : Conforms L n (fun _ _ => True) c :=
  h.weaken (fun _ _ _ _ => trivial)

theorem pure {n : Nat} {Q : Nat → α → Prop} {a : α} (h : ∀ m, n ≤ m → Q m a) : Conforms L n Q (Pure.pure a : Comp P X W α) := by
  intro M hM hm
  refine ⟨hM, Nat.le_refl _, fun b hb => ?_⟩
  cases hb
  exact h _ hm

theorem raise {n : Nat} {Q : Nat → α → Prop} (e : Exn X) : Conforms L n Q (Comp.raise e : Comp P X W α) :=
  fun _ hM _ => ⟨hM, Nat.le_refl _, fun _ hb => nomatch hb⟩

theorem timeout {n : Nat} {Q : Nat → α → Prop} : Conforms L n Q (Comp.timeout : Comp P X W α) :=
  fun _ hM _ => ⟨hM, Nat.le_refl _, fun _ hb => nomatch hb⟩

theorem bind {n : Nat} {Q : Nat → α → Prop} {R : Nat → β → Prop} {c : Comp P X W α} {f : α → Comp P X W β}
    (h : Conforms L n Q c) (hf : ∀ m a, n ≤ m → Q m a → Conforms L m R (f a)) : Conforms L n R (c >>= f) := by
  intro M hM hm
  obtain ⟨h1, h2, h3⟩ := h M hM hm
  rw [Comp.bind_run]
  rcases hc : c M with ⟨r, M'⟩
  rw [hc] at h1 h2 h3
  cases r with
  | ok a =>
    obtain ⟨g1, g2, g3⟩ := hf M'.mem.next a (Nat.le_trans hm h2) (h3 a rfl) M' h1 (Nat.le_refl _)
    exact ⟨g1, Nat.le_trans h2 g2, g3⟩
  | raise e => exact ⟨h1, h2, fun _ hb => nomatch hb⟩
  | timeout => exact ⟨h1, h2, fun _ hb => nomatch hb⟩

theorem ite {n : Nat} {Q : Nat → α → Prop} {p : Prop} [Decidable p] {c d : Comp P X W α} (hc : Conforms L n Q c)
    (hd : Conforms L n Q d) : Conforms L n Q (if p then c else d) := by
  split
  · exact hc
  · exact hd

theorem tryExcept {n : Nat} {Q : Nat → α → Prop} {c h : Comp P X W α} (hc : Conforms L n Q c) (hh : Conforms L n Q h) :
    Conforms L n Q (Comp.tryExcept c h) := by
  intro M hM hm
  obtain ⟨h1, h2, h3⟩ := hc M hM hm
  unfold Comp.tryExcept
  rcases hc : c M with ⟨r, M'⟩
  rw [hc] at h1 h2 h3
  cases r with
  | ok a => exact ⟨h1, h2, h3⟩
  | raise e =>
    simp only [Comp.handle]
    split
    · obtain ⟨g1, g2, g3⟩ := hh M' h1 (Nat.le_trans hm h2)
      exact ⟨g1, Nat.le_trans h2 g2, g3⟩
    · exact ⟨h1, h2, fun _ hb => nomatch hb⟩
  | timeout => exact ⟨h1, h2, fun _ hb => nomatch hb⟩

/-! ### Memory -/

theorem readNode {n : Nat} {r : Ref} (hr : (r : Nat) < n) :
    Conforms L n (fun _ d => L.NodeAt r d) (readNode r : Comp P X W _) := by
  intro M hM hm
  refine ⟨hM, Nat.le_refl _, fun a ha => ?_⟩
  cases ha
  exact hM.mem.nodes r (Nat.lt_of_lt_of_le hr hm)

theorem writeNode {n : Nat} {r : Ref} {d : DNode P} (h : L.NodeAt r d) :
    Conforms L n (fun _ _ => True) (writeNode r d : Comp P X W _) := by
  intro M hM hm
  refine ⟨⟨⟨fun q hq => ?_, hM.mem.world⟩, hM.values, hM.indent⟩, Nat.le_refl _, fun _ _ => trivial⟩
  show L.NodeAt q (if q = r then d else M.mem.nodes q)
  split
  · subst q; exact h
  · exact hM.mem.nodes q hq

theorem allocNode (hL : L.Laws) {n : Nat} {d : DNode P} (h : L.NodeAt n d) :
    Conforms L n (fun m r => (r : Nat) < m) (allocNode d : Comp P X W _) := by
  intro M hM hm
  have hle : M.mem.next ≤ M.mem.next + 1 := Nat.le_succ _
  refine ⟨⟨⟨fun q hq => ?_, hL.world_mono hle hM.mem.world⟩, fun σ sl v hv => hL.value (hM.values σ sl v hv) hle, hM.indent⟩, hle,
    fun a ha => ?_⟩
  · show L.NodeAt q (if q = M.mem.next then d else M.mem.nodes q)
    have hq : q < M.mem.next + 1 := hq
    split
    · subst q; exact hL.node h hm
    · exact hM.mem.nodes q (Nat.lt_of_le_of_ne (Nat.lt_succ_iff.1 hq) ‹_›)
  · cases ha
    exact Nat.lt_succ_self _

theorem countNodes {n : Nat} : Conforms L n (fun _ _ => True) (countNodes : Comp P X W _) :=
  fun _ hM _ => ⟨hM, Nat.le_refl _, fun _ _ => trivial⟩

theorem getSlot {n : Nat} (σ : StateId) (sl : Slot) :
    Conforms L n (fun m o => ∀ v, o = some v → L.Value m v) (getSlot σ sl : Comp P X W _) := by
  intro M hM hm
  refine ⟨hM, Nat.le_refl _, fun a ha v hv => ?_⟩
  cases ha
  exact hM.values σ sl v hv

theorem setSlot (hL : L.Laws) {n : Nat} (σ : StateId) (sl : Slot) {v : Val P} (h : L.Value n v) :
    Conforms L n (fun _ _ => True) (setSlot σ sl v : Comp P X W _) := by
  intro M hM hm
  refine ⟨⟨hM.mem, fun τ t w hw => ?_, fun τ => ?_⟩, Nat.le_refl _, fun _ _ => trivial⟩
  · simp only [Verif.setSlot, Machine.updState] at hw
    split at hw
    · simp only at hw
      split at hw
      · cases hw; exact hL.value h hm
      · exact hM.values _ _ _ hw
    · exact hM.values _ _ _ hw
  · simp only [Verif.setSlot, Machine.updState]
    split <;> exact hM.indent τ

theorem curIndent {n : Nat} (σ : StateId) :
    Conforms L n (fun _ s => ∀ c ∈ s, isSpace c = true) (curIndent σ : Comp P X W _) := by
  intro M hM hm
  refine ⟨hM, Nat.le_refl _, fun a ha => ?_⟩
  cases ha
  exact hM.indent σ

theorem putStore {M : Machine P W} (hM : L.Store M) (σ : StateId) {s : Str} (h : ∀ c ∈ s, isSpace c = true) :
    L.Store (M.updState σ (fun t => { t with indentation := s })) := by
  refine ⟨hM.mem, fun τ t w hw => ?_, fun τ => ?_⟩
  · simp only [Machine.updState] at hw
    split at hw <;> exact hM.values _ _ _ hw
  · simp only [Machine.updState]
    split
    · exact h
    · exact hM.indent τ

theorem putIndent {n : Nat} (σ : StateId) {s : Str} (h : ∀ c ∈ s, isSpace c = true) :
    Conforms L n (fun _ _ => True) (putIndent σ s : Comp P X W _) :=
  fun _ hM _ => ⟨putStore hM σ h, Nat.le_refl _, fun _ _ => trivial⟩

theorem keepIndent {n : Nat} {Q : Nat → α → Prop} (σ : StateId) {c : Comp P X W α} (h : Conforms L n Q c) :
    Conforms L n Q (keepIndent σ c) := by
  intro M hM hm
  obtain ⟨h1, h2, h3⟩ := h M hM hm
  exact ⟨putStore h1 σ (hM.indent σ), h2, h3⟩

theorem doIndent {n : Nat} (σ : StateId) {ch : Char} (h : isSpace ch = true) :
    Conforms L n (fun _ _ => True) (doIndent σ ch : Comp P X W _) :=
  (curIndent σ).bind (fun _ s _ hs => putIndent σ (by simpa [or_imp, forall_and] using ⟨hs, h⟩))

theorem doDedent {n : Nat} (σ : StateId) (ch : Char) :
    Conforms L n (fun _ _ => True) (doDedent σ ch : Comp P X W _) := by
  refine (curIndent σ).bind (fun _ s _ hs => ?_)
  cases s.getLast? with
  | none => exact raise _
  | some d => exact ite (putIndent σ (fun c hc => hs c (List.dropLast_subset _ hc))) (raise _)

/-! ### Nodes -/

theorem forRefs {n : Nat} {f : Ref → Comp P X W Unit} {rs : List Ref} (hr : Refs n rs)
    (hf : ∀ m r, n ≤ m → (r : Nat) < m → Conforms L m (fun _ _ => True) (f r)) : Conforms L n (fun _ _ => True) (forRefs f rs) := by
  induction rs generalizing n with
  | nil => exact pure (fun _ _ => trivial)
  | cons r rs ih =>
    refine (hf n r (Nat.le_refl _) (hr r (by simp))).bind (fun m _ hm _ => ih ?_ ?_)
    · exact Refs.mono (fun q hq => hr q (by simp [hq])) hm
    · exact fun k q hk hq => hf k q (Nat.le_trans hm hk) hq

theorem indented {r : Nat} {d : DNode P} {i : Option Str} (h : L.NodeAt r d) (hi : SpaceIndent i) :
    L.NodeAt r { d with indent := i } := ⟨hi, h.body, h.attrs, h.kwattrs, h.content⟩

theorem relativeIndent (k : Nat) (parent : Str) {n : Nat} {r : Ref} (hr : (r : Nat) < n) :
    Conforms L n (fun _ _ => True) (relativeIndent k parent r : Comp P X W Unit) := by
  induction k generalizing n r with
  | zero => exact timeout
  | succ k ih =>
    refine (readNode hr).bind (fun m d hm hd => ?_)
    cases hi : d.indent with
    | none =>
      simp only
      refine forRefs (fun q hq => ?_) (fun _ _ _ h => ih h)
      exact Nat.lt_of_lt_of_le (Nat.lt_trans (hd.body q hq) hr) hm
    | some ind =>
      have hs := hd.indent
      rw [hi] at hs
      exact ite (ite (writeNode (indented hd (fun c hc => hs c (List.mem_of_mem_drop hc)))) (raise _)) (pure (fun _ _ => trivial))

theorem relativeChildren {n : Nat} (ind : Option Str) {body : List Ref} (hb : Refs n body) :
    Conforms L n (fun _ _ => True) (relativeChildren ind body : Comp P X W Unit) := by
  cases ind with
  | none => exact pure (fun _ _ => trivial)
  | some i => exact countNodes.bind (fun m _ hm _ => forRefs (hb.mono hm) (fun _ _ _ h => relativeIndent _ _ h))

theorem setIndentNode {n : Nat} {ind : Option Str} (hi : SpaceIndent ind) {r : Ref} (hr : (r : Nat) < n) :
    Conforms L n (fun _ _ => True) (setIndentNode ind r : Comp P X W Unit) := by
  refine (readNode hr).bind (fun m d hm hd => (writeNode (indented hd hi)).bind (fun k _ hk _ => ?_))
  have hb : Refs k d.body := fun q hq => Nat.lt_of_lt_of_le (Nat.lt_trans (hd.body q hq) hr) (Nat.le_trans hm hk)
  cases d.cls with
  | text s => exact pure (fun _ _ => trivial)
  | node => exact relativeChildren _ hb
  | root => exact relativeChildren _ hb

theorem setIndent {n : Nat} {ind : Str} (hi : ∀ c ∈ ind, isSpace c = true) {ns : List Ref} (hr : Refs n ns) :
    Conforms L n (fun _ _ => True) (setIndent ind ns : Comp P X W Unit) :=
  forRefs hr (fun _ _ _ h => setIndentNode (ind := some ind) hi h)

theorem setOutline {n : Nat} (o : Bool) {r : Ref} (hr : (r : Nat) < n) :
    Conforms L n (fun _ _ => True) (setOutline o r : Comp P X W Unit) :=
  (readNode hr).bind (fun _ _ _ hd => writeNode ⟨hd.indent, hd.body, hd.attrs, hd.kwattrs, hd.content⟩)

theorem newText (hL : L.Laws) {n : Nat} {s : Str} (hs : L.text s) {ind : Option Str} (hi : SpaceIndent ind) :
    Conforms L n (fun m r => (r : Nat) < m) (newText s ind : Comp P X W Ref) :=
  allocNode hL ⟨hi, by simp, by simp, by simp, hs⟩

theorem newNode (hL : L.Laws) {n : Nat} {cls : NodeClass} {body : List Ref} {ind : Option Str} {tag : Option (NodeTag P)}
    {attrs : Option (List (Val P))} {kw : Option (List (Str × Val P))} (hb : Refs n body) (hi : SpaceIndent ind)
    (ha : Policy.Values L n (attrs.getD [])) (hk : Policy.Entries L n (kw.getD [])) (hc : L.content cls tag (kw.getD [])) :
    Conforms L n (fun m r => (r : Nat) < m) (newNode cls body ind tag attrs kw : Comp P X W Ref) :=
  (allocNode hL (d := { cls := cls, tag := tag, attrs := attrs, kwattrs := kw, body := body, indent := ind })
    ⟨hi, hb, ha, hk, hc⟩).bind (fun _ _ hm hr => (relativeChildren _ (hb.mono hm)).bind
    (fun _ _ hk _ => pure (fun _ hj => Nat.lt_of_lt_of_le hr (Nat.le_trans hk hj))))

end Conforms

/-! ### Code outside of the model -/

/-- The environment conforms to the policy. -/
structure Spec.Policy.Fair (L : Policy P W) (E : Env P X W) : Prop where
  laws : L.Laws
  ops : L.Honest E.ops
  expand : ∀ n h b as kw σ, L.Value n b → Policy.Values L n as → Policy.Entries L n kw →
    Conforms L n Refs (E.expand h b as kw σ)
  call : ∀ n (c : Callback P), L.calls → L.Value n c.body → Policy.Values L n c.attrs → Policy.Entries L n c.kwattrs →
    Conforms L n L.Value (E.call c)

theorem Spec.Policy.Fair.proc {E : Env P X W} (F : L.Fair E) {Q : Nat → α → Prop} (p : Proc P X W α) (k : Nat) (h : L.Run Q k p)
    (st : StateId → TState P) (hv : ∀ σ sl v, (st σ).values sl = some v → L.Value k v)
    (hi : ∀ σ, ∀ c ∈ (st σ).indentation, isSpace c = true) :
    L.Store (runProc E.call p st).2 ∧ k ≤ (runProc E.call p st).2.mem.next ∧
      ∀ a, (runProc E.call p st).1 = .ok a → Q (runProc E.call p st).2.mem.next a := by
  induction p generalizing k st with
  | ret a m =>
    simp only [Policy.Run] at h
    refine ⟨⟨h.1, fun σ sl v hs => F.laws.value (hv σ sl v hs) h.2.1, hi⟩, h.2.1, fun b hb => ?_⟩
    cases hb
    exact h.2.2
  | raise e m =>
    simp only [Policy.Run] at h
    exact ⟨⟨h.1, fun σ sl v hs => F.laws.value (hv σ sl v hs) h.2, hi⟩, h.2, fun b hb => nomatch hb⟩
  | call c m f ih =>
    simp only [Policy.Run] at h
    obtain ⟨hc, hm, hk, hb, ha, hw, hf⟩ := h
    have hS : L.Store (⟨st, m⟩ : Machine P W) := ⟨hm, fun σ sl v hs => F.laws.value (hv σ sl v hs) hk, hi⟩
    obtain ⟨g1, g2, g3⟩ := F.call m.next c hc hb ha hw ⟨st, m⟩ hS (Nat.le_refl _)
    simp only [runProc]
    rcases hr : E.call c ⟨st, m⟩ with ⟨r, M'⟩
    rw [hr] at g1 g2 g3
    cases r with
    | ok v =>
      have := ih (.ok v) M'.mem M'.mem.next (hf _ _ g1.mem g2 (fun w hw => by cases hw; exact g3 v rfl)) M'.states g1.values g1.indent
      exact ⟨this.1, Nat.le_trans hk (Nat.le_trans g2 this.2.1), this.2.2⟩
    | raise e =>
      have := ih (.error e) M'.mem M'.mem.next (hf _ _ g1.mem g2 (fun w hw => nomatch hw)) M'.states g1.values g1.indent
      exact ⟨this.1, Nat.le_trans hk (Nat.le_trans g2 this.2.1), this.2.2⟩
    | timeout => exact ⟨g1, Nat.le_trans hk g2, fun b hb => nomatch hb⟩

theorem Spec.Policy.Fair.py {E : Env P X W} (F : L.Fair E) {n : Nat} {Q : Nat → α → Prop} {c : PyM P X W α} (h : L.Op E.ops n Q c) :
    Conforms L n Q (runPy E c) := fun M hM hn =>
  F.proc (c M.mem) M.mem.next (F.ops.run h M.mem hM.mem hn) M.states hM.values hM.indent

end
end Verif
