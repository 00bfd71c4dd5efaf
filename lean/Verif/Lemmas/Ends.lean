import Verif.Lemmas.Comp
import Verif.Lemmas.Policy
import Verif.Lemmas.PolicyEval
import Verif.Spec.Ending

/-! Computations that end when the bounds are large enough. -/

namespace Verif
open Py Spec

section
variable {P X W α β : Type} {O : Outside P W} {G : DefId → Slot → Prop} {σ : StateId}

def Outside.Plains (O : Outside P W) (n : Nat) (vs : List (Val P)) : Prop := ∀ v ∈ vs, O.Plain n v

def Outside.Entries (O : Outside P W) (n : Nat) (kw : List (Str × Val P)) : Prop := ∀ a ∈ kw, O.Plain n a.2

/-- The memory and the values of the script's slots; `G id k`: the hypertag `id` is kept in the slot `k`. -/
structure Outside.Store (O : Outside P W) (G : DefId → Slot → Prop) (σ : StateId) (M : Machine P W) : Prop where
  mem : O.Memory M.mem
  values : ∀ sl v, (M.states σ).values sl = some v → O.Plain M.mem.next v ∨ ∃ id, v = .hyper (.defn id) ∧ G id sl

theorem Spec.Outside.Later.refl (w : W) : O.Later w w := fun _ k h => ⟨k, Nat.le_refl _, h⟩

theorem Spec.Outside.Later.trans {a b c : W} (h : O.Later a b) (h' : O.Later b c) : O.Later a c := fun it k hk =>
  let ⟨k1, h1, e1⟩ := h it k hk
  let ⟨k2, h2, e2⟩ := h' it k1 e1
  ⟨k2, Nat.le_trans h2 h1, e2⟩

/-- From some bound on, the outcome is the same and not that the bound is too small. -/
def Halts (O : Outside P W) (G : DefId → Slot → Prop) (σ : StateId) (n : Nat) (Q : Nat → α → Prop) (c : Nat → Comp P X W α) : Prop :=
  ∀ M, Outside.Store O G σ M → n ≤ M.mem.next → ∃ N r M', (∀ m, N ≤ m → c m M = (r, M')) ∧ r ≠ .timeout ∧
    Outside.Store O G σ M' ∧ M.mem.next ≤ M'.mem.next ∧ O.Later M.mem.world M'.mem.world ∧ ∀ a, r = .ok a → Q M'.mem.next a

namespace Halts

theorem mono {n m : Nat} {Q : Nat → α → Prop} {c : Nat → Comp P X W α} (h : Halts O G σ n Q c) (hn : n ≤ m) : Halts O G σ m Q c :=
  fun M hM hm => h M hM (Nat.le_trans hn hm)

theorem weaken {n : Nat} {Q R : Nat → α → Prop} {c : Nat → Comp P X W α} (h : Halts O G σ n Q c) (hQ : ∀ m a, n ≤ m → Q m a → R m a) :
    Halts O G σ n R c := fun M hM hm =>
  let ⟨N, r, M', h1, h2, h3, h4, h5, h6⟩ := h M hM hm
  ⟨N, r, M', h1, h2, h3, h4, h5, fun a ha => hQ _ a (Nat.le_trans hm h4) (h6 a ha)⟩

/-- A computation that does not depend on the bounds. -/
theorem of {n : Nat} {Q : Nat → α → Prop} {c : Comp P X W α} (h : ∀ M, Outside.Store O G σ M → n ≤ M.mem.next → (c M).1 ≠ .timeout ∧
    Outside.Store O G σ (c M).2 ∧ M.mem.next ≤ (c M).2.mem.next ∧ O.Later M.mem.world (c M).2.mem.world ∧
    ∀ a, (c M).1 = .ok a → Q (c M).2.mem.next a) : Halts O G σ n Q (fun _ => c) := fun M hM hm =>
  let ⟨h1, h2, h3, h4, h5⟩ := h M hM hm
  ⟨0, (c M).1, (c M).2, fun _ _ => rfl, h1, h2, h3, h4, h5⟩

theorem pure {n : Nat} {Q : Nat → α → Prop} {a : α} (h : ∀ m, n ≤ m → Q m a) : Halts O G σ n Q (fun _ => (Pure.pure a : Comp P X W α)) :=
  of (fun M hM hm => ⟨nofun, hM, Nat.le_refl _, .refl _, fun b hb => by cases hb; exact h _ hm⟩)

theorem raise {n : Nat} {Q : Nat → α → Prop} (e : Exn X) : Halts O G σ n Q (fun _ => (Comp.raise e : Comp P X W α)) :=
  of (fun M hM hm => ⟨nofun, hM, Nat.le_refl _, .refl _, fun b hb => nomatch hb⟩)

theorem bind {n : Nat} {Q : Nat → α → Prop} {R : Nat → β → Prop} {c : Nat → Comp P X W α} {f : Nat → α → Comp P X W β}
    (h : Halts O G σ n Q c) (hf : ∀ m a, n ≤ m → Q m a → Halts O G σ m R (fun i => f i a)) : Halts O G σ n R (fun i => c i >>= f i) := by
  intro M hM hm
  obtain ⟨N, r, M', h1, h2, h3, h4, h5, h6⟩ := h M hM hm
  cases r with
  | ok a =>
    obtain ⟨N', r', M'', g1, g2, g3, g4, g5, g6⟩ := hf M'.mem.next a (Nat.le_trans hm h4) (h6 a rfl) M' h3 (Nat.le_refl _)
    refine ⟨max N N', r', M'', fun i hi => ?_, g2, g3, Nat.le_trans h4 g4, h5.trans g5, g6⟩
    show (c i >>= f i) M = _
    rw [Comp.bind_run, h1 i (by omega)]
    exact g1 i (by omega)
  | raise e =>
    refine ⟨N, .raise e, M', fun i hi => ?_, nofun, h3, h4, h5, fun _ hb => nomatch hb⟩
    show (c i >>= f i) M = _
    rw [Comp.bind_run, h1 i hi]
    rfl
  | timeout => exact absurd rfl h2

theorem ite {n : Nat} {Q : Nat → α → Prop} {p : Prop} [Decidable p] {c d : Nat → Comp P X W α} (hc : Halts O G σ n Q c)
    (hd : Halts O G σ n Q d) : Halts O G σ n Q (fun i => if p then c i else d i) := by
  split
  · exact hc
  · exact hd

theorem tryExcept {n : Nat} {Q : Nat → α → Prop} {c h : Nat → Comp P X W α} (hc : Halts O G σ n Q c) (hh : Halts O G σ n Q h) :
    Halts O G σ n Q (fun i => Comp.tryExcept (c i) (h i)) := by
  intro M hM hm
  obtain ⟨N, r, M', h1, h2, h3, h4, h5, h6⟩ := hc M hM hm
  cases r with
  | ok a =>
    refine ⟨N, .ok a, M', fun i hi => ?_, nofun, h3, h4, h5, h6⟩
    show Comp.handle (h i) (c i M) = _
    rw [h1 i hi]; rfl
  | raise e =>
    by_cases he : e.ordinary = true
    · obtain ⟨N', r', M'', g1, g2, g3, g4, g5, g6⟩ := hh M' h3 (Nat.le_trans hm h4)
      refine ⟨max N N', r', M'', fun i hi => ?_, g2, g3, Nat.le_trans h4 g4, h5.trans g5, g6⟩
      show Comp.handle (h i) (c i M) = _
      rw [h1 i (by omega)]
      simp only [Comp.handle, if_pos he]
      exact g1 i (by omega)
    · refine ⟨N, .raise e, M', fun i hi => ?_, nofun, h3, h4, h5, fun _ hb => nomatch hb⟩
      show Comp.handle (h i) (c i M) = _
      rw [h1 i hi]
      simp only [Comp.handle, if_neg he]
  | timeout => exact absurd rfl h2

/-! ### Memory -/

theorem readNode {n : Nat} {r : Ref} (hr : (r : Nat) < n) :
    Halts O G σ n (fun _ d => ∀ q ∈ d.body, (q : Nat) < r) (fun _ => (readNode r : Comp P X W _)) :=
  of (fun M hM hm => ⟨nofun, hM, Nat.le_refl _, .refl _, fun a ha => by
    cases ha; exact hM.mem.nodes r (Nat.lt_of_lt_of_le hr hm)⟩)

theorem writeNode {n : Nat} {r : Ref} {d : DNode P} (h : ∀ q ∈ d.body, (q : Nat) < r) :
    Halts O G σ n (fun _ _ => True) (fun _ => (writeNode r d : Comp P X W _)) := by
  refine of (fun M hM hm => ⟨nofun, ⟨⟨fun q hq => ?_, hM.mem.world⟩, hM.values⟩, Nat.le_refl _, .refl _, fun _ _ => trivial⟩)
  show ∀ p ∈ (if q = r then d else M.mem.nodes q).body, p < q
  split
  · subst q; exact h
  · exact hM.mem.nodes q hq

theorem getSlot {n : Nat} (sl : Slot) : Halts O G σ n (fun m o => ∀ v, o = some v → O.Plain m v ∨ ∃ id, v = .hyper (.defn id) ∧ G id sl)
    (fun _ => (getSlot σ sl : Comp P X W _)) :=
  of (fun M hM hm => ⟨nofun, hM, Nat.le_refl _, .refl _, fun a ha v hv => by cases ha; exact hM.values sl v hv⟩)

theorem curIndent {n : Nat} : Halts O G σ n (fun _ _ => True) (fun _ => (curIndent σ : Comp P X W _)) :=
  of (fun _ hM _ => ⟨nofun, hM, Nat.le_refl _, .refl _, fun _ _ => trivial⟩)

theorem putStore {M : Machine P W} (hM : Outside.Store O G σ M) (s : Str) :
    Outside.Store O G σ (M.updState σ (fun t => { t with indentation := s })) := by
  refine ⟨hM.mem, fun t w hw => ?_⟩
  simp only [Machine.updState] at hw
  split at hw <;> exact hM.values _ _ hw

theorem putIndent {n : Nat} (s : Str) : Halts O G σ n (fun _ _ => True) (fun _ => (putIndent σ s : Comp P X W _)) :=
  of (fun _ hM _ => ⟨nofun, putStore hM s, Nat.le_refl _, .refl _, fun _ _ => trivial⟩)

theorem keepIndent {n : Nat} {Q : Nat → α → Prop} {c : Nat → Comp P X W α} (h : Halts O G σ n Q c) :
    Halts O G σ n Q (fun i => keepIndent σ (c i)) := by
  intro M hM hm
  obtain ⟨N, r, M', h1, h2, h3, h4, h5, h6⟩ := h M hM hm
  refine ⟨N, r, M'.updState σ (fun t => { t with indentation := (M.states σ).indentation }), fun i hi => ?_, h2, putStore h3 _, h4, h5, h6⟩
  show restoring σ _ (c i M) = _
  rw [h1 i hi]; rfl

theorem doIndent {n : Nat} (ch : Char) : Halts O G σ n (fun _ _ => True) (fun _ => (doIndent σ ch : Comp P X W _)) :=
  curIndent.bind (fun _ _ _ _ => putIndent _)

theorem doDedent {n : Nat} (ch : Char) : Halts O G σ n (fun _ _ => True) (fun _ => (doDedent σ ch : Comp P X W _)) := by
  refine curIndent.bind (fun _ s _ _ => ?_)
  cases s.getLast? with
  | none => exact raise _
  | some d => exact ite (putIndent _) (raise _)

/-! ### Nodes -/

theorem forRefs {n : Nat} {f : Nat → Ref → Comp P X W Unit} {rs : List Ref} (hr : Refs n rs)
    (hf : ∀ m r, n ≤ m → r ∈ rs → (r : Nat) < m → Halts O G σ m (fun _ _ => True) (fun i => f i r)) :
    Halts O G σ n (fun _ _ => True) (fun i => forRefs (f i) rs) := by
  induction rs generalizing n with
  | nil => exact pure (fun _ _ => trivial)
  | cons r rs ih =>
    refine (hf n r (Nat.le_refl _) (by simp) (hr r (by simp))).bind (fun m _ hm _ => ih ?_ ?_)
    · exact Refs.mono (fun q hq => hr q (by simp [hq])) hm
    · exact fun k q hk hq hqk => hf k q (Nat.le_trans hm hk) (by simp [hq]) hqk

theorem relativeIndent (k : Nat) (parent : Str) {n : Nat} {r : Ref} (hr : (r : Nat) < n) (hk : (r : Nat) < k) :
    Halts O G σ n (fun _ _ => True) (fun _ => (relativeIndent k parent r : Comp P X W Unit)) := by
  induction k generalizing n r with
  | zero => cases hk
  | succ k ih =>
    refine (readNode hr).bind (fun m d hm hd => ?_)
    cases hi : d.indent with
    | none =>
      simp only
      exact forRefs (fun q hq => Nat.lt_of_lt_of_le (Nat.lt_trans (hd q hq) hr) hm)
        (fun _ q _ hq h => ih h (Nat.lt_of_lt_of_le (hd q hq) (Nat.le_of_lt_succ hk)))
    | some ind => exact ite (ite (writeNode hd) (raise _)) (pure (fun _ _ => trivial))

theorem relativeChildren {n : Nat} (ind : Option Str) {body : List Ref} (hb : Refs n body) :
    Halts O G σ n (fun _ _ => True) (fun _ => (relativeChildren ind body : Comp P X W Unit)) := by
  cases ind with
  | none => exact pure (fun _ _ => trivial)
  | some i =>
    have hc : Halts O G σ n (fun _ k => n ≤ k) (fun _ => (countNodes : Comp P X W Nat)) :=
      of (fun _ hM hm => ⟨nofun, hM, Nat.le_refl _, .refl _, fun a ha => by cases ha; exact hm⟩)
    exact hc.bind (fun m k hm hk => forRefs (hb.mono hm) (fun _ r _ hr h =>
      relativeIndent _ _ h (Nat.lt_succ_of_lt (Nat.lt_of_lt_of_le (hb r hr) hk))))

theorem setIndentNode {n : Nat} (ind : Option Str) {r : Ref} (hr : (r : Nat) < n) :
    Halts O G σ n (fun _ _ => True) (fun _ => (setIndentNode ind r : Comp P X W Unit)) := by
  refine (readNode hr).bind (fun m d hm hd => (writeNode (d := { d with indent := ind }) hd).bind (fun k _ hk _ => ?_))
  have hb : Refs k d.body := fun q hq => Nat.lt_of_lt_of_le (Nat.lt_trans (hd q hq) hr) (Nat.le_trans hm hk)
  cases d.cls with
  | text s => exact pure (fun _ _ => trivial)
  | node => exact relativeChildren _ hb
  | root => exact relativeChildren _ hb

theorem setIndent {n : Nat} (ind : Str) {ns : List Ref} (hr : Refs n ns) :
    Halts O G σ n (fun _ _ => True) (fun _ => (setIndent ind ns : Comp P X W Unit)) :=
  forRefs hr (fun _ _ _ _ h => setIndentNode _ h)

theorem setOutline {n : Nat} (o : Bool) {r : Ref} (hr : (r : Nat) < n) :
    Halts O G σ n (fun _ _ => True) (fun _ => (setOutline o r : Comp P X W Unit)) :=
  (readNode hr).bind (fun _ d _ hd => writeNode (d := { d with outline := o }) hd)

end Halts

/-! ### Python code -/

section
variable {ops : PyOps P X W} (C : O.Calm ops)
include C

theorem Spec.Outside.Calm.plain {n m : Nat} {v : Val P} (h : O.Plain n v) (hn : n ≤ m) : O.Plain m v := by
  induction h with
  | none => exact .none
  | bool b => exact .bool b
  | str s => exact .str s
  | py h => exact .py (C.obj_mono hn h)
  | dom h => exact .dom (fun r hr => Nat.lt_of_lt_of_le (h r hr) hn)
  | node h => exact .node (Nat.lt_of_lt_of_le h hn)
  | part _ _ _ h1 h2 h3 => exact .part h1 h2 h3

theorem Spec.Outside.Calm.plains {n m : Nat} {vs : List (Val P)} (h : Outside.Plains O n vs) (hn : n ≤ m) : Outside.Plains O m vs :=
  fun v hv => C.plain (h v hv) hn

theorem Spec.Outside.Calm.entries {n m : Nat} {kw : List (Str × Val P)} (h : Outside.Entries O n kw) (hn : n ≤ m) : Outside.Entries O m kw :=
  fun v hv => C.plain (h v hv) hn

namespace Halts

theorem allocNode {n : Nat} {d : DNode P} (h : Refs n d.body) :
    Halts O G σ n (fun m r => (r : Nat) < m) (fun _ => (allocNode d : Comp P X W _)) := by
  refine of (fun M hM hm => ?_)
  have hle : M.mem.next ≤ M.mem.next + 1 := Nat.le_succ _
  refine ⟨nofun, ⟨⟨fun q hq => ?_, C.world_mono hle hM.mem.world⟩, fun sl v hv => (hM.values sl v hv).imp_left (C.plain · hle)⟩, hle,
    .refl _, fun a ha => ?_⟩
  · show ∀ p ∈ (if q = M.mem.next then d else M.mem.nodes q).body, p < q
    have hq : q < M.mem.next + 1 := hq
    split
    · subst q; exact fun p hp => Nat.lt_of_lt_of_le (h p hp) hm
    · exact hM.mem.nodes q (Nat.lt_of_le_of_ne (Nat.lt_succ_iff.1 hq) ‹_›)
  · cases ha
    exact Nat.lt_succ_self _

theorem newText {n : Nat} (s : Str) (ind : Option Str) : Halts O G σ n (fun m r => (r : Nat) < m) (fun _ => (newText s ind : Comp P X W Ref)) :=
  allocNode C (by simp [Refs])

theorem newNode {n : Nat} {cls : NodeClass} {body : List Ref} {ind : Option Str} {tag : Option (NodeTag P)}
    {attrs : Option (List (Val P))} {kw : Option (List (Str × Val P))} (hb : Refs n body) :
    Halts O G σ n (fun m r => (r : Nat) < m) (fun _ => (newNode cls body ind tag attrs kw : Comp P X W Ref)) :=
  (allocNode C (d := { cls := cls, tag := tag, attrs := attrs, kwattrs := kw, body := body, indent := ind }) hb).bind
    (fun _ _ hm hr => (relativeChildren _ (hb.mono hm)).bind
    (fun _ _ hk _ => pure (fun _ hj => Nat.lt_of_lt_of_le hr (Nat.le_trans hk hj))))

theorem setSlot {n : Nat} (sl : Slot) {v : Val P} (h : O.Plain n v ∨ ∃ id, v = .hyper (.defn id) ∧ G id sl) :
    Halts O G σ n (fun _ _ => True) (fun _ => (setSlot σ sl v : Comp P X W _)) := by
  refine of (fun M hM hm => ⟨nofun, ⟨hM.mem, fun t w hw => ?_⟩, Nat.le_refl _, .refl _, fun _ _ => trivial⟩)
  simp only [Verif.setSlot, Machine.updState, if_true] at hw
  split at hw
  · subst t; cases hw; exact h.imp_left (C.plain · hm)
  · exact hM.values _ _ hw

/-- What Python code does is the same for all bounds. -/
theorem py_run {E : Nat → Env P X W} {n : Nat} {Q : Nat → α → Prop} {c : PyM P X W α} (h : O.Op ops n Q c) (M : Machine P W)
    (hM : Outside.Store O G σ M) (hn : n ≤ M.mem.next) : ∃ r m', (∀ i, runPy (E i) c M = (r, ⟨M.states, m'⟩)) ∧ r ≠ .timeout ∧
    Outside.Store O G σ ⟨M.states, m'⟩ ∧ M.mem.next ≤ m'.next ∧ O.Later M.mem.world m'.world ∧ (∀ a, r = .ok a → Q m'.next a ∧
      c M.mem = .ret a m') := by
  have h := C.run h M.mem hM.mem hn
  unfold runPy
  cases hc : c M.mem with
  | ret a m' =>
    rw [hc] at h
    obtain ⟨h1, h2, h3, h4⟩ := h
    exact ⟨.ok a, m', fun i => rfl, nofun, ⟨h1, fun sl v hv => (hM.values sl v hv).imp_left (C.plain · h2)⟩, h2, h3, fun b hb => by
      cases hb; exact ⟨h4, rfl⟩⟩
  | raise e m' =>
    rw [hc] at h
    obtain ⟨h1, h2, h3⟩ := h
    exact ⟨.raise e, m', fun i => rfl, nofun, ⟨h1, fun sl v hv => (hM.values sl v hv).imp_left (C.plain · h2)⟩, h2, h3, fun b hb => nomatch hb⟩
  | call a b d => rw [hc] at h; exact h.elim

theorem py {E : Nat → Env P X W} {n : Nat} {Q : Nat → α → Prop} {c : PyM P X W α} (h : O.Op ops n Q c) :
    Halts O G σ n Q (fun i => runPy (E i) c) := fun M hM hn =>
  let ⟨r, m', h1, h2, h3, h4, h5, h6⟩ := py_run C (E := E) h M hM hn
  ⟨0, r, ⟨M.states, m'⟩, fun i _ => h1 i, h2, h3, h4, h5, fun a ha => (h6 a ha).1⟩

/-- `for` loops end with their iterators. -/
theorem forLoop {E : Nat → Env P X W} {n : Nat} {it : Val P} (hi : O.Plain n it) {step : Nat → Val P → Comp P X W (List Ref)}
    (hs : ∀ m v, n ≤ m → O.Plain m v → Halts O G σ m Refs (fun i => step i v)) (k : Nat) : ∀ (M : Machine P W) (out : List Ref) (empty : Bool),
    Outside.Store O G σ M → n ≤ M.mem.next → Refs M.mem.next out → O.left M.mem.world it = some k →
    ∃ N r M', (∀ m f, N ≤ m → N ≤ f → forLoop (runPy (E m) (ops.next it)) (step m) f out empty M = (r, M')) ∧ r ≠ .timeout ∧
      Outside.Store O G σ M' ∧ M.mem.next ≤ M'.mem.next ∧ O.Later M.mem.world M'.mem.world ∧ ∀ a, r = .ok a → Refs M'.mem.next a.1 := by
  induction k using Nat.strongRecOn with
  | _ k ih =>
    intro M out empty hM hn ho hk
    obtain ⟨r, m', h1, h2, h3, h4, h5, h6⟩ := py_run C (E := E) (.next (C.plain hi hn)) M hM (Nat.le_refl _)
    have hrun : ∀ m f, Verif.forLoop (runPy (E m) (ops.next it)) (step m) (f + 1) out empty M =
        Comp.next (fun o => match o with
          | .none => Pure.pure (out, empty)
          | some v => step m v >>= fun ns => Verif.forLoop (runPy (E m) (ops.next it)) (step m) f (out ++ ns) false)
          (r, ⟨M.states, m'⟩) := by
      intro m f
      simp only [Verif.forLoop]
      rw [Comp.bind_run, h1 m]
      congr 1
    cases r with
    | timeout => exact absurd rfl h2
    | raise e =>
      refine ⟨1, .raise e, _, fun m f _ hf => ?_, nofun, h3, h4, h5, fun _ hb => nomatch hb⟩
      obtain ⟨f, rfl⟩ : ∃ f', f = f' + 1 := ⟨f - 1, by omega⟩
      rw [hrun]; rfl
    | ok o =>
      cases o with
      | none =>
        refine ⟨1, .ok (out, empty), _, fun m f _ hf => ?_, nofun, h3, h4, h5, fun a hb => ?_⟩
        · obtain ⟨f, rfl⟩ : ∃ f', f = f' + 1 := ⟨f - 1, by omega⟩
          rw [hrun]; rfl
        · cases hb; exact ho.mono h4
      | some v =>
        obtain ⟨hv, hc⟩ := h6 _ rfl
        obtain ⟨k1, hk1, hl1⟩ := C.next hM.mem (C.plain hi hn) hc hk
        obtain ⟨N1, r1, M1, g1, g2, g3, g4, g5, g6⟩ := hs m'.next v (Nat.le_trans hn h4) (hv v rfl) ⟨M.states, m'⟩ h3 (Nat.le_refl _)
        have g1 : ∀ m, N1 ≤ m → step m v ⟨M.states, m'⟩ = (r1, M1) := g1
        cases r1 with
        | timeout => exact absurd rfl g2
        | raise e =>
          refine ⟨max N1 1, .raise e, M1, fun m f hm hf => ?_, nofun, g3, Nat.le_trans h4 g4, h5.trans g5, fun _ hb => nomatch hb⟩
          obtain ⟨f, rfl⟩ : ∃ f', f = f' + 1 := ⟨f - 1, by omega⟩
          rw [hrun]
          show (step m v >>= _) _ = _
          rw [Comp.bind_run, g1 m (by omega)]
          rfl
        | ok ns =>
          obtain ⟨k2, hk2, hl2⟩ := g5 it k1 hl1
          have hns := g6 ns rfl
          obtain ⟨N2, r2, M2, e1, e2, e3, e4, e5, e6⟩ := ih k2 (by omega) M1 (out ++ ns) false g3
            (Nat.le_trans hn (Nat.le_trans h4 g4)) ((ho.mono (Nat.le_trans h4 g4)).append hns) hl2
          refine ⟨max N1 N2 + 1, r2, M2, fun m f hm hf => ?_, e2, e3, Nat.le_trans h4 (Nat.le_trans g4 e4), (h5.trans g5).trans e5, e6⟩
          obtain ⟨f, rfl⟩ : ∃ f', f = f' + 1 := ⟨f - 1, by omega⟩
          rw [hrun]
          show (step m v >>= _) _ = _
          rw [Comp.bind_run, g1 m (by omega)]
          exact e1 m f (by omega) (by omega)

end Halts
end
end
end Verif
