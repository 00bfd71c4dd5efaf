import Verif.Spec.Declaration
import Verif.Props.UnusedImport
import Verif.Props.Visible

/-! C128: the order of declarations. -/

set_option linter.unusedSectionVars false

namespace Verif
open Py Spec

section
variable {P X W I : Type}

/-! ### C128 The order of declarations that do not mention each other makes no difference -/

/-! #### Slots -/

/-- Slots from `n` to `n + w - 1`, and the next `v`, exchange places. -/
def swapSlot (n w v : Nat) (s : Nat) : Nat := if s < n then s else if s < n + w then s + v else if s < n + w + v then s - w else s

theorem swap_swap (n w v s : Nat) : swapSlot n v w (swapSlot n w v s) = s := by
  unfold swapSlot
  repeat' split
  all_goals omega

theorem swap_low {n w v s : Nat} (h : s < n) : swapSlot n w v s = s := if_pos h

theorem swap_high {n w v s : Nat} (h : n + w + v ≤ s) : swapSlot n w v s = s := by
  unfold swapSlot
  rw [if_neg (by omega), if_neg (by omega), if_neg (by omega)]

theorem swap_first {n w v s : Nat} (h : s < n + w) : swapSlot n w v s = liftSlot n v s := by
  have e : liftSlot n v s = (if s < n then s else s + v : Nat) := rfl
  rw [e]
  unfold swapSlot
  repeat' split
  all_goals omega

theorem swap_second {n w v s : Nat} (h : s < n + v) : swapSlot n w v (liftSlot n w s) = s := by
  have e : liftSlot n w s = (if s < n then s else s + w : Nat) := rfl
  rw [e]
  unfold swapSlot
  repeat' split
  all_goals omega

theorem swap_own (n w v : Nat) (o : Option Slot) : Own (swapSlot n w v) o := fun sl _ s h => by
  have := congrArg (swapSlot n v w) h
  rwa [swap_swap, swap_swap] at this

/-! #### What declarations do -/

/-- The symbols, slots and values that the analysed statement `s'` brings. -/
structure Brought (c c' : Ctx) (s' : Stmt P) (l : List (Str × Slot × Val P)) : Prop where
  binds : c'.binds = c.binds ++ l.map (fun x => (x.1, ⟨x.2.1, c.regular⟩))
  slots : ∀ x ∈ l, c.next ≤ x.2.1 ∧ x.2.1 < c'.next
  does : ∀ (X W : Type) (f : Slot → Slot) (E : Env P X W) (σ : StateId) (m : Str) (mo : Option Modifier),
    (do let r ← transl E σ (.xblock m mo (s'.reslot f)); return nodesOf r : Comp P X W (List Ref)) =
      translStatic m >>= fun a => setSlots σ (l.map (fun x => (f x.2.1, x.2.2))) >>= fun _ => Pure.pure a

theorem setSlots_both (σ : StateId) : ∀ a b : List (Slot × Val P), (setSlots σ (a ++ b) : Comp P X W Unit) = setSlots σ a >>= fun _ => setSlots σ b
  | [], b => by simp only [List.nil_append, setSlots, Comp.pure_bind]
  | x :: a, b => by simp only [List.cons_append, setSlots, Comp.bind_assoc, setSlots_both σ a b]

theorem newSlot_brings {c c' : Ctx} {y : Str} {s : SlotInfo} (h : (newSlot c y : Except (AErr I) _) = .ok (s, c')) :
    s = ⟨c.next, c.regular⟩ ∧ c'.binds = c.binds ++ [(y, ⟨c.next, c.regular⟩)] ∧ c'.next = c.next + 1 ∧ c'.regular = c.regular := by
  unfold newSlot at h
  split at h
  · cases h; exact ⟨rfl, rfl, rfl, rfl⟩
  · cases h

theorem valueSlots_brings : ∀ (l : List (Str × Val P)) {c c' : Ctx} {r : List (Str × Slot × Val P)}, (valueSlots l c : Except (AErr I) _) = .ok (r, c') →
    c'.binds = c.binds ++ r.map (fun x => (x.1, ⟨x.2.1, c.regular⟩)) ∧ c'.regular = c.regular
  | [], c, c', r, h => by
    simp only [valueSlots] at h
    cases h
    simp
  | (y, v) :: l, c, c', r, h => by
    simp only [valueSlots] at h
    obtain ⟨⟨s, c1⟩, e1, h⟩ := Except.bind_eq_ok.1 h
    obtain ⟨⟨r1, c2⟩, e2, h⟩ := Except.bind_eq_ok.1 h
    cases h
    obtain ⟨rfl, h1, _, h2⟩ := newSlot_brings e1
    obtain ⟨h3, h4⟩ := valueSlots_brings l e2
    refine ⟨?_, h4.trans h2⟩
    rw [h3, h1, h2]
    simp

/-- The same for one import. -/
structure ItemBrought (c c' : Ctx) (i' : ImportItem P) (l : List (Str × Slot × Val P)) : Prop where
  binds : c'.binds = c.binds ++ l.map (fun x => (x.1, ⟨x.2.1, c.regular⟩))
  next : c.next ≤ c'.next
  regular : c'.regular = c.regular
  slots : ∀ x ∈ l, c.next ≤ x.2.1 ∧ x.2.1 < c'.next
  does : ∀ (X W : Type) (f : Slot → Slot) (σ : StateId), (translImport σ (i'.reslot f) : Comp P X W Unit) = setSlots σ (l.map (fun x => (f x.2.1, x.2.2)))

theorem analyseImport_brings (src : Source P I) (path : Option Str) {i i' : ImportItem P} {c c' : Ctx} (h : analyseImport src path i c = .ok (i', c')) :
    ∃ l, ItemBrought c c' i' l := by
  have hn := (analyseImport_next src path h).1
  cases i with
  | wild sl =>
    simp only [analyseImport] at h
    obtain ⟨⟨syms, st⟩, -, h⟩ := Except.bind_eq_ok.1 h
    obtain ⟨pub, -, h⟩ := Except.bind_eq_ok.1 h
    obtain ⟨⟨l, c1⟩, e, h⟩ := Except.bind_eq_ok.1 h
    cases h
    obtain ⟨h1, h2⟩ := valueSlots_ids pub e
    obtain ⟨h3, h4⟩ := valueSlots_brings pub e
    refine ⟨l, h3, hn, h4, h2, fun X W f σ => ?_⟩
    simp only [ImportItem.reslot, translImport, Option.map_some, List.map_map]
    rfl
  | name sym ren sl =>
    simp only [analyseImport] at h
    split at h
    · cases h
    obtain ⟨⟨syms, st⟩, -, h⟩ := Except.bind_eq_ok.1 h
    simp only at h
    split at h
    · cases h
    rename_i v _
    obtain ⟨⟨s, c1⟩, e, h⟩ := Except.bind_eq_ok.1 h
    cases h
    obtain ⟨rfl, h1, h2, h3⟩ := newSlot_brings e
    refine ⟨[(renamed sym ren, c.next, importValue sym st v)], h1, hn, h3, ?_, fun X W f σ => ?_⟩
    · simp only [List.mem_singleton, forall_eq]
      rw [h2]
      exact ⟨Nat.le_refl _, Nat.lt_succ_self _⟩
    · simp only [ImportItem.reslot, translImport, Option.map_some, List.map_cons, List.map_nil, setSlots]
      exact (Comp.bind_pure _).symm
  | cntx sym ren sl =>
    simp only [analyseImport] at h
    split at h
    · cases h
    rename_i v _
    obtain ⟨⟨s, c1⟩, e, h⟩ := Except.bind_eq_ok.1 h
    cases h
    obtain ⟨rfl, h1, h2, h3⟩ := newSlot_brings e
    refine ⟨[(renamed sym ren, c.next, v)], h1, hn, h3, ?_, fun X W f σ => ?_⟩
    · simp only [List.mem_singleton, forall_eq]
      rw [h2]
      exact ⟨Nat.le_refl _, Nat.lt_succ_self _⟩
    · simp only [ImportItem.reslot, translImport, Option.map_some, List.map_cons, List.map_nil, setSlots]
      exact (Comp.bind_pure _).symm

theorem analyseImports_brings (src : Source P I) (path : Option Str) : ∀ {is is' : List (ImportItem P)} {c c' : Ctx},
    analyseImports src path is c = .ok (is', c') → ∃ l : List (Str × Slot × Val P), c'.binds = c.binds ++ l.map (fun x => (x.1, ⟨x.2.1, c.regular⟩)) ∧ c.next ≤ c'.next ∧
      (∀ x ∈ l, c.next ≤ x.2.1 ∧ x.2.1 < c'.next) ∧ ∀ (X W : Type) (f : Slot → Slot) (σ : StateId),
        (translImports σ (is'.map (ImportItem.reslot f)) : Comp P X W Unit) = setSlots σ (l.map (fun x => (f x.2.1, x.2.2)))
  | [], is', c, c', h => by
    simp only [analyseImports] at h
    cases h
    exact ⟨[], by simp, Nat.le_refl _, by simp, fun X W f σ => by simp only [List.map_nil, translImports, setSlots]⟩
  | i :: is, is', c, c', h => by
    simp only [analyseImports] at h
    obtain ⟨⟨i1, c1⟩, e1, h⟩ := Except.bind_eq_ok.1 h
    obtain ⟨⟨is1, c2⟩, e2, h⟩ := Except.bind_eq_ok.1 h
    cases h
    obtain ⟨l, hl⟩ := analyseImport_brings src path e1
    obtain ⟨l', h1, h2, h3, h4⟩ := analyseImports_brings src path e2
    refine ⟨l ++ l', ?_, Nat.le_trans hl.next h2, fun x hx => ?_, fun X W f σ => ?_⟩
    · rw [h1, hl.binds, hl.regular, List.append_assoc, List.map_append]
    · rcases List.mem_append.1 hx with hx | hx
      · exact ⟨(hl.slots x hx).1, Nat.lt_of_lt_of_le (hl.slots x hx).2 h2⟩
      · exact ⟨Nat.le_trans hl.next (h3 x hx).1, (h3 x hx).2⟩
    · simp only [List.map_cons, translImports, List.map_append]
      rw [setSlots_both, hl.does X W f σ, h4 X W f σ]

theorem Spec.Declaration.brings {src : Source P I} {s s' : Stmt P} (hd : Declaration s) {c c' : Ctx} (hb : ∀ x ∈ c.binds, x.2.id < c.next)
    (ht : s.tails Stmt.bare) (h : analyse src s (leaveProlog s c) = .ok (s', c')) : ∃ l, Brought c c' s' l := by
  cases hd with
  | imports path is =>
    simp only [analyse] at h
    split at h
    · cases h
    obtain ⟨⟨is', c2⟩, e, h⟩ := Except.bind_eq_ok.1 h
    cases h
    obtain ⟨l, h1, _, h3, h4⟩ := analyseImports_brings src path e
    refine ⟨l, h1, h3, fun X W f E σ m mo => ?_⟩
    simp only [Stmt.reslot, transl, Comp.bind_assoc, Comp.pure_bind, finishBlock, h4 X W f σ]
    rfl
  | hypertag id name sl ba as b =>
    simp only [Stmt.tails] at ht
    obtain ⟨s, ba', as', b', rfl, h1, h2, h3, _⟩ := defn_apart (src := src) (c := leaveProlog (.defn id name sl ba as b) c) hb ht h
    refine ⟨[('%' :: name, s, .hyper (.defn id))], h3, ?_, fun X W f E σ m mo => ?_⟩
    · simp only [List.mem_singleton, forall_eq]
      rw [h1]
      exact ⟨h2, Nat.lt_succ_self _⟩
    · simp only [Stmt.reslot, transl, Option.map_some, List.map_cons, List.map_nil, setSlots, Comp.bind_assoc, Comp.pure_bind, finishBlock]
      rfl

/-! #### Assignments to different slots -/

theorem setSlot_comm (σ : StateId) {s t : Slot} (v w : Val P) (h : s ≠ t) {α : Type} (k : Comp P X W α) :
    (setSlot σ s v >>= fun _ => setSlot σ t w >>= fun _ => k) = setSlot σ t w >>= fun _ => setSlot σ s v >>= fun _ => k := by
  funext M
  simp only [Comp.bind_run, setSlot, Comp.next]
  congr 1
  unfold Machine.updState
  congr 1
  funext τ
  by_cases e : τ = σ
  · simp only [e, if_true]
    congr 1
    funext u
    by_cases e1 : u = s
    · subst e1; simp [h]
    · by_cases e2 : u = t <;> simp [e1, e2, Ne.symm h]
  · simp only [e, if_false]

theorem setSlot_setSlots (σ : StateId) {s : Slot} (v : Val P) {α : Type} (k : Comp P X W α) : ∀ l : List (Slot × Val P), (∀ x ∈ l, s ≠ x.1) →
    (setSlot σ s v >>= fun _ => setSlots σ l >>= fun _ => k) = setSlots σ l >>= fun _ => setSlot σ s v >>= fun _ => k
  | [], _ => by simp only [setSlots, Comp.pure_bind]
  | (t, w) :: l, h => by
    simp only [setSlots, Comp.bind_assoc]
    rw [setSlot_comm σ v w (h (t, w) (by simp)), setSlot_setSlots σ v k l (fun x hx => h x (by simp [hx]))]

theorem setSlots_comm (σ : StateId) {α : Type} (k : Comp P X W α) (b : List (Slot × Val P)) : ∀ a : List (Slot × Val P), (∀ x ∈ a, ∀ y ∈ b, x.1 ≠ y.1) →
    (setSlots σ a >>= fun _ => setSlots σ b >>= fun _ => k) = setSlots σ b >>= fun _ => setSlots σ a >>= fun _ => k
  | [], _ => by simp only [setSlots, Comp.pure_bind]
  | (t, w) :: a, h => by
    simp only [setSlots, Comp.bind_assoc]
    rw [setSlots_comm σ k b a (fun x hx => h x (by simp [hx])), setSlot_setSlots σ w _ b (h (t, w) (by simp))]

theorem setSlots_static (σ : StateId) (m : Str) {α : Type} (k : List Ref → Comp P X W α) : ∀ l : List (Slot × Val P),
    (setSlots σ l >>= fun _ => translStatic m >>= k) = translStatic m >>= fun y => setSlots σ l >>= fun _ => k y
  | [] => by simp only [setSlots, Comp.pure_bind]
  | (t, w) :: l => by
    simp only [setSlots, Comp.bind_assoc]
    rw [setSlots_static σ m k l]
    cases m with
    | nil => simp only [translStatic, Comp.pure_bind]
    | cons c m => rfl

/-! #### Analysis -/

section
variable {src : Source P I} {g : Dict Str (Val P)} {ss1 ss2 : List (Stmt P)} {mk : Marks} {U : Uni}

theorem Spec.Declaration.leave {s : Stmt P} (h : Declaration s) (c : Ctx) : leaveProlog s c = { c with prolog := false } := by
  cases h <;> rfl

/-- A context with further symbols, other than those in `p`. -/
theorem later_seat {c c2 : Ctx} {w : Nat} {p : Str → Prop} {ob : List (Str × SlotInfo)} (hb : ∀ x ∈ c.binds, x.2.id < c.next) (ho : ∀ x ∈ ob, ¬ p x.1)
    (h1 : c2.binds = c.binds ++ ob) (h2 : c2.next = c.next + w) (h3 : c2.regular = c.regular) (h4 : c2.control = c.control) (h5 : c2.hypertag = c.hypertag)
    (h6 : c2.prolog = c.prolog) : Seating (liftSlot c.next w) p 0 c.binds c2.binds ∧ Ctx.Seat (liftSlot c.next w) p 0 True c.binds c2.binds c c2 := by
  refine ⟨⟨fun y hy => ?_, fun h => absurd h (Nat.lt_irrefl _)⟩, ⟨[], by simp, by simp [reslotBinds], by simp⟩, h3, h4, h5, fun _ => h6, ?_, fun n hn => ?_, Nat.zero_le _, hb⟩
  · rw [h1, lookupBind_app, lookupBind_none (l := ob)]
    · show lookupBind c.binds y = _
      cases hl : lookupBind c.binds y with
      | none => rfl
      | some i =>
        show some i = some (⟨liftSlot c.next w i.id, i.depth⟩ : SlotInfo)
        rw [lift_low (hb _ (lookupBind_mem hl))]
    · intro hm
      obtain ⟨x, hx, rfl⟩ := List.mem_map.1 hm
      exact ho x hx hy
  · rw [h2]; unfold liftSlot; rw [if_neg (Nat.lt_irrefl _)]
  · unfold liftSlot
    rw [if_neg (Nat.not_lt.2 hn), if_neg (Nat.not_lt.2 (Nat.le_succ_of_le hn)), Nat.add_right_comm]

/-- The symbols of both declarations, in either order. -/
theorem lookup_swap {n v w : Nat} {z α β : List (Str × SlotInfo)} (hz : ∀ x ∈ z, x.2.id < n) (ha : ∀ x ∈ α, x.2.id < n + w) (hb : ∀ x ∈ β, x.2.id < n + v)
    (hab : ∀ x ∈ α, x.1 ∉ β.map Prod.fst) (y : Str) :
    lookupBind (z ++ α ++ reslotBinds (liftSlot n w) β) y = (lookupBind (z ++ β ++ reslotBinds (liftSlot n v) α) y).map (SlotInfo.reslot (swapSlot n v w)) := by
  simp only [lookupBind_app, lookupBind_reslot]
  have hz' : (lookupBind z y).map (SlotInfo.reslot (swapSlot n v w)) = lookupBind z y := by
    cases h : lookupBind z y with
    | none => rfl
    | some i =>
      show some (⟨swapSlot n v w i.id, i.depth⟩ : SlotInfo) = some i
      rw [swap_low (hz _ (lookupBind_mem h))]
  cases ea : lookupBind α y with
  | none =>
    cases eb : lookupBind β y with
    | none => simp only [Option.map_none, Option.none_or]; exact hz'.symm
    | some j =>
      simp only [Option.map_none, Option.map_some, Option.none_or, Option.some_or]
      show some (⟨liftSlot n w j.id, j.depth⟩ : SlotInfo) = some ⟨swapSlot n v w j.id, j.depth⟩
      rw [swap_first (hb _ (lookupBind_mem eb))]
  | some i =>
    rw [lookupBind_none (l := β) (hab _ (lookupBind_mem ea))]
    simp only [Option.map_none, Option.map_some, Option.none_or, Option.some_or]
    show some i = some (⟨swapSlot n v w (liftSlot n v i.id), i.depth⟩ : SlotInfo)
    rw [swap_second (ha _ (lookupBind_mem ea))]

/-- What analysis finds in either order: `a` at the slots from `n` on, `b` at those from `n` on; the second one is moved. -/
structure SwapOut (first : Slot) (g : Dict Str (Val P)) (n v w : Nat) (d : List (Stmt P)) (a b : Stmt P) (la lb : List (Str × Slot × Val P))
    (o1 α β : List (Str × SlotInfo)) : Prop where
  low : first + g.length ≤ n
  one : NeatAll 0 n d
  neatA : NeatStmt 0 (n + w) a
  neatB : NeatStmt 0 (n + v) b
  slotsA : ∀ x ∈ la, n ≤ x.2.1 ∧ x.2.1 < n + w
  slotsB : ∀ x ∈ lb, n ≤ x.2.1 ∧ x.2.1 < n + v
  doesA : ∀ (X W : Type) (f : Slot → Slot) (E : Env P X W) (σ : StateId) (m : Str) (mo : Option Modifier),
    (do let r ← transl E σ (.xblock m mo (a.reslot f)); return nodesOf r : Comp P X W (List Ref)) =
      translStatic m >>= fun r => setSlots σ (la.map (fun x => (f x.2.1, x.2.2))) >>= fun _ => Pure.pure r
  doesB : ∀ (X W : Type) (f : Slot → Slot) (E : Env P X W) (σ : StateId) (m : Str) (mo : Option Modifier),
    (do let r ← transl E σ (.xblock m mo (b.reslot f)); return nodesOf r : Comp P X W (List Ref)) =
      translStatic m >>= fun r => setSlots σ (lb.map (fun x => (f x.2.1, x.2.2))) >>= fun _ => Pure.pure r
  outs1 : ∀ x ∈ o1, x.2.id < n
  outsA : ∀ x ∈ α, x.2.id < n + w
  outsB : ∀ x ∈ β, x.2.id < n + v
  apart : ∀ x ∈ α, x.1 ∉ β.map Prod.fst

theorem swap_out (hg : ∀ x ∈ g, validSymbol x.1 = true) {m1 m2 : Str} {moA moB : Option Modifier} {A B : Stmt P} (dA : Declaration A) (dB : Declaration B)
    (ht : Stmt.tailsAll Stmt.bare (ss1 ++ .xblock m1 moA A :: .xblock m2 moB B :: ss2))
    (hA : A.onlyNames src (fun y => y ∉ B.defines src)) (hB : B.onlyNames src (fun y => y ∉ A.defines src)) (hx : Stmt.noContextAll ss2) (first : Slot)
    {doc0 : Document P} (h0 : analyseDocument src first g (ss1 ++ [.xblock m1 moA A, .xblock m2 moB B]) = .ok doc0) :
    (∃ e, analyseDocument src first g (ss1 ++ .xblock m1 moA A :: .xblock m2 moB B :: ss2) = .error e ∧
      analyseDocument src first g (ss1 ++ .xblock m1 moB B :: .xblock m2 moA A :: ss2) = .error e) ∨
    ∃ n v w d a b c la lb o1 α β o2, SwapOut first g n v w d a b la lb o1 α β ∧
      analyseDocument src first g (ss1 ++ .xblock m1 moA A :: .xblock m2 moB B :: ss2) =
        .ok ⟨fills first g, d ++ .xblock m1 moA a :: .xblock m2 moB (b.reslot (liftSlot n w)) :: Stmt.reslotAll (swapSlot n v w) c,
          (Dict.update [] (o1 ++ α ++ reslotBinds (liftSlot n w) β ++ reslotBinds (swapSlot n v w) o2)).map (fun p => (p.1, p.2.id))⟩ ∧
      analyseDocument src first g (ss1 ++ .xblock m1 moB B :: .xblock m2 moA A :: ss2) =
        .ok ⟨fills first g, d ++ .xblock m1 moB b :: .xblock m2 moA (a.reslot (liftSlot n v)) :: c,
          (Dict.update [] (o1 ++ β ++ reslotBinds (liftSlot n v) α ++ o2)).map (fun p => (p.1, p.2.id))⟩ := by
  obtain ⟨ht1, ht⟩ := tailsAll_both ht
  simp only [Stmt.tailsAll, Stmt.tails] at ht
  obtain ⟨tA, tB, ht2⟩ := ht
  rw [analyseDocument_open hg, analyseAll_append] at h0
  rw [analyseDocument_open hg, analyseDocument_open hg]
  cases e1 : analyseAll src ss1 (openCtx first g) with
  | error e => rw [e1] at h0; cases h0
  | ok r1 =>
    obtain ⟨d, c1⟩ := r1
    rw [e1] at h0
    have hgr := (analyseAll_grows src ss1 (openCtx first g)) _ e1
    have hS1 := seating_same (seats first g)
    have hopen : ∀ x ∈ (openCtx first g).binds, x.2.id < (openCtx first g).next := fun x hx => (seats_mem g first x hx).2.2
    obtain ⟨c1', k1, n1, q1⟩ := (analyseAll_seated (src := src) hS1 ss1 _ _ (Ctx.seat_same hopen) (Stmt.onlyNamesAll_any src ss1) ht1 (.inl trivial)
      (fun _ _ _ h => absurd h (Nat.lt_irrefl _))).result e1
    obtain ⟨o1, b1, _⟩ := hgr.binds
    have b1 : c1.binds = seats first g ++ o1 := b1
    have h0 : ((analyseAll src [.xblock m1 moA A, .xblock m2 moB B] c1 >>= fun r => Pure.pure (d ++ r.1, r.2)) >>= _) = Except.ok doc0 := h0
    cases e2 : analyse src A (leaveProlog A c1) with
    | error e =>
      simp only [analyseAll, analyse_xblock, e2] at h0
      cases h0
    | ok r2 =>
    obtain ⟨a, c2⟩ := r2
    cases e3 : analyse src B (leaveProlog B c2) with
    | error e =>
      have : analyseAll src [.xblock m1 moA A, .xblock m2 moB B] c1 = .error e := by
        simp only [analyseAll, analyse_xblock, e2]
        show (((analyse src B (leaveProlog B c2) >>= _) >>= _) >>= _) = _
        rw [e3]
        rfl
      rw [this] at h0
      cases h0
    | ok r3 =>
    obtain ⟨b2, c3⟩ := r3
    clear h0
    have below := k1.below
    -- A, from its place
    have hgA := (analyse_grows src A (leaveProlog A c1)) _ e2
    obtain ⟨α, f2, hα⟩ := hgA.binds
    obtain ⟨la, hla⟩ := dA.brings below tA e2
    obtain ⟨_, sA, nA, neatA⟩ := (analyse_seated (src := src) (seating_same (leaveProlog A c1).binds) A (leaveProlog A c1) _ (Ctx.seat_same (c := leaveProlog A c1) (by rw [dA.leave]; exact below)) (Stmt.onlyNames_any src A) tA (.inl trivial)
      (fun _ _ _ h => absurd h (Nat.lt_irrefl _))).result e2
    have belowA := sA.below
    rw [dA.leave] at e2 f2 hgA nA
    have f2 : c2.binds = c1.binds ++ α := f2
    obtain ⟨w, hw⟩ := Nat.exists_eq_add_of_le (show c1.next ≤ c2.next from nA.1)
    -- B, in its place and in that of A
    rw [dB.leave] at e3
    obtain ⟨S2, C2⟩ := later_seat (c := { c1 with prolog := false }) (c2 := { c2 with prolog := false }) (w := w) (p := fun y => y ∉ A.defines src) (ob := α)
      below (fun x hx h => h (hα x hx)) f2 hw hgA.regular hgA.control hgA.hypertag rfl
    rcases analyse_seated (src := src) S2 B _ _ C2 hB tB (.inl trivial) (fun _ _ _ h => absurd h (Nat.lt_irrefl _)) with
      ⟨e, _, h⟩ | ⟨b, c2', c3x, e4, e4', s4, n4, _⟩
    · rw [e3] at h; cases h
    rw [e3] at e4'
    cases e4'
    obtain ⟨_, sB, nB, neatB⟩ := (analyse_seated (src := src) (seating_same c1.binds) B { c1 with prolog := false } _ (Ctx.seat_same (c := { c1 with prolog := false }) below) (Stmt.onlyNames_any src B) tB (.inl trivial)
      (fun _ _ _ h => absurd h (Nat.lt_irrefl _))).result e4
    have hgB := (analyse_grows src B _) _ e4
    obtain ⟨β, f4, hβ⟩ := hgB.binds
    have f4 : c2'.binds = c1.binds ++ β := f4
    have e4l := e4
    rw [← dB.leave] at e4l
    obtain ⟨lb, hlb⟩ := dB.brings below tB e4l
    obtain ⟨v, hv⟩ := Nat.exists_eq_add_of_le (show c1.next ≤ c2'.next from nB.1)
    have f3 : c3.binds = c1.binds ++ α ++ reslotBinds (liftSlot c1.next w) β := by
      obtain ⟨r, g1, g2, _⟩ := s4.binds
      have g1 : c2'.binds = c1.binds ++ r := g1
      have : r = β := List.append_cancel_left (g1.symm.trans f4)
      rw [← this, ← f2]
      exact g2
    have x3 : c3.next = c1.next + v + w := by
      rw [s4.next, hv]
      show liftSlot c1.next w (c1.next + v) = _
      unfold liftSlot
      rw [if_neg (Nat.not_lt.2 (Nat.le_add_right _ _))]
    -- A, in the place of B
    obtain ⟨S3, C3⟩ := later_seat (c := { c1 with prolog := false }) (c2 := { c2' with prolog := false }) (w := v) (p := fun y => y ∉ B.defines src) (ob := β)
      below (fun x hx h => h (hβ x hx)) f4 hv hgB.regular hgB.control hgB.hypertag rfl
    rcases analyse_seated (src := src) S3 A _ _ C3 hA tA (.inl trivial) (fun _ _ _ h => absurd h (Nat.lt_irrefl _)) with
      ⟨e, h, _⟩ | ⟨a1, c2x, c3', e5, e5', s5, n5, _⟩
    · rw [e2] at h; cases h
    rw [e2] at e5
    cases e5
    have f3' : c3'.binds = c1.binds ++ β ++ reslotBinds (liftSlot c1.next v) α := by
      obtain ⟨r, g1, g2, _⟩ := s5.binds
      have g1 : c2.binds = c1.binds ++ r := g1
      have : r = α := List.append_cancel_left (g1.symm.trans f2)
      rw [← this, ← f4]
      exact g2
    have x3' : c3'.next = c1.next + w + v := by
      rw [s5.next, hw]
      show liftSlot c1.next v (c1.next + w) = _
      unfold liftSlot
      rw [if_neg (Nat.not_lt.2 (Nat.le_add_right _ _))]
    have apart : ∀ x ∈ α, x.1 ∉ β.map Prod.fst := by
      intro x hx hm
      obtain ⟨r, g1, _, g3⟩ := s4.binds
      have g1 : c2'.binds = c1.binds ++ r := g1
      have : r = β := List.append_cancel_left (g1.symm.trans f4)
      rw [this] at g3
      obtain ⟨y, hy, hxy⟩ := List.mem_map.1 hm
      exact (g3 y hy).1 (hxy ▸ hα x hx)
    have oA : ∀ x ∈ α, x.2.id < c1.next + w := fun x hx => hw ▸ belowA x (by rw [f2]; exact List.mem_append_right _ hx)
    have oB : ∀ x ∈ β, x.2.id < c1.next + v := fun x hx => hv ▸ sB.below x (by rw [f4]; exact List.mem_append_right _ hx)
    -- The rest
    have S : Seating (swapSlot c1.next v w) (fun _ => True) 0 c3'.binds c3.binds := by
      refine ⟨fun y _ => ?_, fun h => absurd h (Nat.lt_irrefl _)⟩
      rw [f3, f3']
      exact lookup_swap below oA oB apart y
    have C : Ctx.Seat (swapSlot c1.next v w) (fun _ => True) 0 False c3'.binds c3.binds c3' c3 := by
      refine ⟨⟨[], by simp, by simp [reslotBinds], by simp⟩, ?_, ?_, ?_, False.elim, ?_, fun n hn => ?_, Nat.zero_le _, ?_⟩
      · exact s4.regular.trans (hgB.regular.trans (hgA.regular.symm.trans s5.regular.symm))
      · exact s4.control.trans (hgB.control.trans (hgA.control.symm.trans s5.control.symm))
      · exact s4.hypertag.trans (hgB.hypertag.trans (hgA.hypertag.symm.trans s5.hypertag.symm))
      · rw [x3, x3', swap_high (Nat.le_of_eq (Nat.add_right_comm ..))]; exact Nat.add_right_comm ..
      · have hn : c3'.next ≤ n := hn
        rw [x3', Nat.add_right_comm] at hn
        rw [swap_high hn, swap_high (Nat.le_succ_of_le hn)]
      · intro x hx
        rw [x3']
        rw [f3'] at hx
        rcases List.mem_append.1 hx with hx | hx
        · rcases List.mem_append.1 hx with hx | hx
          · have := below x hx
            exact Nat.lt_of_lt_of_le this (by omega)
          · have := oB x hx
            exact Nat.lt_of_lt_of_le this (by omega)
        · obtain ⟨y, hy, rfl⟩ := List.mem_map.1 hx
          have := oA y hy
          show liftSlot c1.next v y.2.id < _
          unfold liftSlot
          split
          · exact Nat.lt_of_lt_of_le this (by omega)
          · exact Nat.add_lt_add_right this v
    have ab : analyseAll src (ss1 ++ .xblock m1 moA A :: .xblock m2 moB B :: ss2) (openCtx first g) =
        (analyseAll src ss2 c3 >>= fun r => Pure.pure (d ++ .xblock m1 moA a :: .xblock m2 moB (b.reslot (liftSlot c1.next w)) :: r.1, r.2)) := by
      rw [analyseAll_append, e1]
      show (analyseAll src (_ :: _ :: ss2) c1 >>= fun r => Pure.pure (d ++ r.1, r.2)) = _
      simp only [analyseAll, analyse_xblock, dA.leave, e2]
      show ((((analyse src B (leaveProlog B c2) >>= _) >>= _) >>= _) >>= _) = _
      rw [dB.leave, e3]
      show (((analyseAll src ss2 c3 >>= _) >>= _) >>= _) = _
      cases analyseAll src ss2 c3 <;> rfl
    have ba : analyseAll src (ss1 ++ .xblock m1 moB B :: .xblock m2 moA A :: ss2) (openCtx first g) =
        (analyseAll src ss2 c3' >>= fun r => Pure.pure (d ++ .xblock m1 moB b :: .xblock m2 moA (a.reslot (liftSlot c1.next v)) :: r.1, r.2)) := by
      rw [analyseAll_append, e1]
      show (analyseAll src (_ :: _ :: ss2) c1 >>= fun r => Pure.pure (d ++ r.1, r.2)) = _
      simp only [analyseAll, analyse_xblock, dB.leave, e4]
      show ((((analyse src A (leaveProlog A c2') >>= _) >>= _) >>= _) >>= _) = _
      rw [dA.leave, e5']
      show (((analyseAll src ss2 c3' >>= _) >>= _) >>= _) = _
      cases analyseAll src ss2 c3' <;> rfl
    rw [ab, ba]
    rcases analyseAll_seated (src := src) S ss2 _ _ C (Stmt.onlyNamesAll_any src ss2) ht2 (.inr hx) (fun _ _ _ h => absurd h (Nat.lt_irrefl _)) with
      ⟨e, g1, g2⟩ | ⟨c, c4, c4', g1, g2, g3, _, _⟩
    · rw [g1, g2]; exact .inl ⟨e, rfl, rfl⟩
    · rw [g1, g2]
      obtain ⟨o2, b3, b3', _⟩ := g3.binds
      refine .inr ⟨c1.next, v, w, d, a, b, c, la, lb, o1, α, β, o2, ⟨n1.1, q1, hw ▸ neatA, hv ▸ neatB, hw ▸ hla.slots, hv ▸ hlb.slots, hla.does, hlb.does,
        fun x hx => below x (by rw [b1]; exact List.mem_append_right _ hx), oA, oB, apart⟩, ?_, ?_⟩
      · show Except.ok _ = Except.ok _
        congr 2
        unfold exportsOf
        rw [b3', f3, b1]
        simp only [List.append_assoc]
        rw [← seats_length g first, List.drop_left]
      · show Except.ok _ = Except.ok _
        congr 2
        unfold exportsOf
        rw [b3, f3', b1]
        simp only [List.append_assoc]
        rw [← seats_length g first, List.drop_left]

/-- The same symbols are exported, from corresponding slots. -/
theorem exports_swap {n v w : Nat} {o1 α β o2 : List (Str × SlotInfo)} (h1 : ∀ x ∈ o1, x.2.id < n) (ha : ∀ x ∈ α, x.2.id < n + w) (hb : ∀ x ∈ β, x.2.id < n + v)
    (hab : ∀ x ∈ α, x.1 ∉ β.map Prod.fst) (y : Str) :
    Dict.get? ((Dict.update [] (o1 ++ α ++ reslotBinds (liftSlot n w) β ++ reslotBinds (swapSlot n v w) o2)).map (fun p => (p.1, p.2.id))) y =
      (Dict.get? ((Dict.update [] (o1 ++ β ++ reslotBinds (liftSlot n v) α ++ o2)).map (fun p => (p.1, p.2.id))) y).map (swapSlot n v w) := by
  rw [get?_map_id, get?_map_id, get?_update_last, get?_update_last, lookupBind_app _ (reslotBinds _ o2), lookupBind_app _ o2, lookup_swap h1 ha hb hab, lookupBind_reslot]
  simp only [Dict.get?, Option.or_none]
  cases lookupBind o2 y with
  | some i => rfl
  | none =>
    simp only [Option.map_none, Option.none_or]
    cases lookupBind (o1 ++ β ++ reslotBinds (liftSlot n v) α) y <;> rfl

/-- Scripts with the same faults that make the same documents. -/
def SameScripts (src : Source P I) (g : Dict Str (Val P)) (first : Slot) (ss ss' : List (Stmt P)) : Prop :=
  (∀ e, analyseDocument src first g ss = .error e ↔ analyseDocument src first g ss' = .error e) ∧
  ∀ doc, analyseDocument src first g ss = .ok doc → ∃ doc', analyseDocument src first g ss' = .ok doc' ∧
    (∀ i, i ∈ (Stmt.defsAll doc.children).map Prod.fst ↔ i ∈ (Stmt.defsAll doc'.children).map Prod.fst) ∧
    ∀ (X W : Type) (ops : PyOps P X W) (Γ : DefId → DefInfo P), Enrolled Γ doc → (∀ i, i ∉ (Stmt.defsAll doc.children).map Prod.fst → (Γ i).below first) →
      ∃ Γ' : DefId → DefInfo P, Enrolled Γ' doc' ∧ (∀ i, i ∉ (Stmt.defsAll doc.children).map Prod.fst → Γ' i = Γ i) ∧
        ∀ (k : Nat) (σ : StateId) (M : Machine P W), M.FreshFrom first →
          SameOutcome (translDocument (envAt ops Γ' k) σ doc' M).1 (translDocument (envAt ops Γ k) σ doc M).1 ∧
          (translDocument (envAt ops Γ' k) σ doc' M).2.mem = (translDocument (envAt ops Γ k) σ doc M).2.mem

theorem Spec.SameOutcome.refl : ∀ r : Res X (Ref × Dict Str (Val P)), SameOutcome r r
  | .ok (root, _) => .ok root (fun _ => rfl)
  | .raise e => .raise e
  | .timeout => .timeout

theorem Spec.SameOutcome.trans {a b c : Res X (Ref × Dict Str (Val P))} (h : SameOutcome a b) (h' : SameOutcome b c) : SameOutcome a c := by
  cases h with
  | ok root h =>
    cases h' with
    | ok _ h' => exact .ok root (fun y => (h y).trans (h' y))
  | raise e => exact h'
  | timeout => exact h'

theorem SameScripts.refl (first : Slot) (ss : List (Stmt P)) : SameScripts src g first ss ss :=
  ⟨fun _ => Iff.rfl, fun doc h => ⟨doc, h, fun _ => Iff.rfl, fun _ _ _ Γ hΓ _ => ⟨Γ, hΓ, fun _ _ => rfl, fun _ _ _ _ => ⟨.refl _, rfl⟩⟩⟩⟩

theorem SameScripts.trans {first : Slot} {a b c : List (Stmt P)} (h : SameScripts src g first a b) (h' : SameScripts src g first b c) : SameScripts src g first a c := by
  refine ⟨fun e => (h.1 e).trans (h'.1 e), fun doc hd => ?_⟩
  obtain ⟨d1, e1, i1, k1⟩ := h.2 doc hd
  obtain ⟨d2, e2, i2, k2⟩ := h'.2 d1 e1
  refine ⟨d2, e2, fun i => (i1 i).trans (i2 i), fun X W ops Γ hΓ ho => ?_⟩
  obtain ⟨Γ1, a1, b1, r1⟩ := k1 X W ops Γ hΓ ho
  obtain ⟨Γ2, a2, b2, r2⟩ := k2 X W ops Γ1 a1 (fun i hi => by
    have hi : i ∉ (Stmt.defsAll doc.children).map Prod.fst := fun h => hi ((i1 i).1 h)
    rw [b1 i hi]; exact ho i hi)
  exact ⟨Γ2, a2, fun i hi => (b2 i (fun h => hi ((i1 i).2 h))).trans (b1 i hi),
    fun k σ M hM => ⟨(r2 k σ M hM).1.trans (r1 k σ M hM).1, (r2 k σ M hM).2.trans (r1 k σ M hM).2⟩⟩

theorem swap_alike (hg : ∀ x ∈ g, validSymbol x.1 = true) {m1 m2 : Str} {moA moB : Option Modifier} {A B : Stmt P} (dA : Declaration A) (dB : Declaration B)
    (ht : Stmt.tailsAll Stmt.bare (ss1 ++ .xblock m1 moA A :: .xblock m2 moB B :: ss2))
    (hA : A.onlyNames src (fun y => y ∉ B.defines src)) (hB : B.onlyNames src (fun y => y ∉ A.defines src)) (hx : Stmt.noContextAll ss2) (first : Slot)
    {doc0 : Document P} (h0 : analyseDocument src first g (ss1 ++ [.xblock m1 moA A, .xblock m2 moB B]) = .ok doc0) :
    SameScripts src g first (ss1 ++ .xblock m1 moA A :: .xblock m2 moB B :: ss2) (ss1 ++ .xblock m1 moB B :: .xblock m2 moA A :: ss2) := by
  unfold SameScripts
  rcases swap_out hg dA dB ht hA hB hx first h0 with ⟨e, k1, k2⟩ | ⟨n, v, w, d, a, b, c, la, lb, o1, α, β, o2, hL, k1, k2⟩
  · rw [k1, k2]
    exact ⟨fun _ => Iff.rfl, fun doc h => by cases h⟩
  rw [k1, k2]
  refine ⟨fun e => by simp, fun doc h => ?_⟩
  cases h
  refine ⟨_, rfl, fun i => ?_, fun X W ops Γ hΓ hother => ?_⟩
  · have hr : ∀ (f : Slot → Slot) (l : List (Stmt P)), (Stmt.defsAll (Stmt.reslotAll f l)).map Prod.fst = (Stmt.defsAll l).map Prod.fst := fun f l => by
      rw [Stmt.defsAll_reslot, List.map_map]; rfl
    have hr' : ∀ (f : Slot → Slot) (s : Stmt P), (s.reslot f).defs.map Prod.fst = s.defs.map Prod.fst := fun f s => by
      rw [Stmt.defs_reslot, List.map_map]; rfl
    show i ∈ (Stmt.defsAll (_ ++ _)).map Prod.fst ↔ i ∈ (Stmt.defsAll (_ ++ _)).map Prod.fst
    rw [defsAll_both, defsAll_both]
    simp only [Stmt.defsAll, Stmt.defs, List.map_append, hr, hr', List.mem_append]
    tauto
  have hn : first ≤ n := Nat.le_trans (Nat.le_add_right _ _) hL.low
  have hone : Holds n (swapSlot n v w) := fun s hs => swap_low hs
  have hone' : Holds n (swapSlot n w v) := fun s hs => swap_low hs
  have hback : (fun s : Slot => swapSlot n w v (swapSlot n v w s)) = fun s => s := funext (swap_swap n v w)
  have hforth : (fun s : Slot => swapSlot n v w (swapSlot n w v s)) = fun s => s := funext (swap_swap n w v)
  have eA : (a.reslot (liftSlot n v)).reslot (swapSlot n v w) = a := by
    rw [Stmt.reslot_twice]
    exact hL.neatA.fix _ (fun s hs => swap_second hs)
  have eB : b.reslot (swapSlot n v w) = b.reslot (liftSlot n w) := by
    have h1 : (b.reslot (liftSlot n w)).reslot (swapSlot n w v) = b := by
      rw [Stmt.reslot_twice]
      exact hL.neatB.fix _ (fun s hs => swap_second hs)
    calc b.reslot (swapSlot n v w) = ((b.reslot (liftSlot n w)).reslot (swapSlot n w v)).reslot (swapSlot n v w) := by rw [h1]
      _ = _ := by rw [Stmt.reslot_twice (swapSlot n v w) (swapSlot n w v) (b.reslot (liftSlot n w)), hforth, Stmt.reslot_same]
  have hdefs : ∀ x ∈ Stmt.defsAll (d ++ .xblock m1 moB b :: .xblock m2 moA (a.reslot (liftSlot n v)) :: c),
      (x.1, x.2.reslot (swapSlot n v w)) ∈
        Stmt.defsAll (d ++ .xblock m1 moA a :: .xblock m2 moB (b.reslot (liftSlot n w)) :: Stmt.reslotAll (swapSlot n v w) c) := by
    intro x hx
    rw [← hL.one.fix _ hone, ← eB]
    have hx2 := List.mem_map_of_mem (f := fun x : DefId × DefInfo P => (x.1, x.2.reslot (swapSlot n v w))) hx
    rw [defsAll_both, List.map_append, ← Stmt.defsAll_reslot, ← Stmt.defsAll_reslot] at hx2
    rw [defsAll_both]
    simp only [Stmt.reslotAll, Stmt.reslot, eA, Stmt.defsAll, Stmt.defs, List.mem_append] at hx2 ⊢
    tauto
  refine ⟨fun i => (Γ i).reslot (swapSlot n w v), ?_, fun i hi => hother i hi _ (hone'.le hn), fun k σ M hM => ?_⟩
  · intro x hx
    have := hΓ _ (hdefs x hx)
    show (Γ x.1).reslot _ = x.2
    rw [show Γ x.1 = x.2.reslot (swapSlot n v w) from this, DefInfo.reslot_twice, hback]
    exact DefInfo.reslot_same _
  have hround : ∀ i, Γ i = ((Γ i).reslot (swapSlot n w v)).reslot (swapSlot n v w) := fun i => by
    rw [DefInfo.reslot_twice, hforth, DefInfo.reslot_same]
  have own := swap_own n v w
  have hE : SimEnv (swapSlot n v w) (envAt ops (fun i => (Γ i).reslot (swapSlot n w v)) k) (envAt ops Γ k) :=
    envAt_sim ops (fun i => ⟨DefInfo.writes_mono (fun o _ => own o) (DefInfo.writes_any _), hround i⟩) k
  let core (E : Env P X W) (ss : List (Stmt P)) : Comp P X W Ref := do
    setSlots σ (fills first g)
    let ns ← translAll E σ ss
    let root ← newNode .root ns (some ['\n']) .none .none .none
    let n ← readNode root
    writeNode root { n with indent := some [] }
    return root
  have hcore : ∀ (E : Env P X W) (ss : List (Stmt P)) (out : List (Str × Slot)), translDocument E σ ⟨fills first g, ss, out⟩ =
      (core E ss >>= fun root => readSymbols σ out >>= fun symbols => Pure.pure (root, symbols)) := fun E ss out => by
    unfold translDocument
    simp only [core, Comp.bind_assoc, Comp.pure_bind]
  have hpair : ∀ (E : Env P X W) (s t : Stmt P) (rest : List (Stmt P)), translAll E σ (s :: t :: rest) =
      ((do let r ← transl E σ s; return nodesOf r : Comp P X W (List Ref)) >>= fun x =>
        (do let r ← transl E σ t; return nodesOf r : Comp P X W (List Ref)) >>= fun y => translAll E σ rest >>= fun z => Pure.pure (x ++ (y ++ z))) := fun E s t rest => by
    simp only [translAll, Comp.bind_assoc, Comp.pure_bind]
  have idB := hL.doesB X W (fun s => s)
  have idA := hL.doesA X W (fun s => s)
  rw [Stmt.reslot_same] at idA idB
  have hsim : Sim (swapSlot n v w) (core (envAt ops (fun i => (Γ i).reslot (swapSlot n w v)) k) (d ++ .xblock m1 moB b :: .xblock m2 moA (a.reslot (liftSlot n v)) :: c))
      (core (envAt ops Γ k) (d ++ .xblock m1 moA a :: .xblock m2 moB (b.reslot (liftSlot n w)) :: Stmt.reslotAll (swapSlot n v w) c)) := by
    refine Sim.bind ?_ (fun _ => Sim.bind ?_ (fun ns => Sim.bind (newNode_sim hE _ _ _ _ _ _) (fun r => Sim.bind (Sim.readNode r) (fun x =>
      Sim.bind (Sim.writeNode r _) (fun _ => Sim.pure _)))))
    · have := setSlots_sim (X := X) (W := W) (f := swapSlot n v w) σ (fills first g) (fun _ _ => own _)
      rw [map_fix (fun x hx => by rw [swap_low (Nat.lt_of_lt_of_le (fills_slot _ _ x hx).2 hL.low)])] at this
      exact this
    · rw [translAll_append, translAll_append]
      have h1 := translAll_sim hE σ d (Stmt.writesAll_mono (fun o _ => own o) _ (Stmt.writesAll_any _))
      rw [hL.one.fix _ hone] at h1
      refine Sim.bind h1 (fun x => Sim.bind ?_ (fun _ => Sim.pure _))
      rw [hpair, hpair, idB, hL.doesA, idA, hL.doesB]
      simp only [Comp.bind_assoc, Comp.pure_bind]
      refine Sim.bind (translStatic_sim hE m1) (fun x => ?_)
      rw [setSlots_static, setSlots_static]
      refine Sim.bind (translStatic_sim hE m2) (fun y => ?_)
      rw [setSlots_comm]
      · have sA := setSlots_sim (X := X) (W := W) (f := swapSlot n v w) σ (la.map (fun x => (liftSlot n v x.2.1, x.2.2))) (fun _ _ => own _)
        have sB := setSlots_sim (X := X) (W := W) (f := swapSlot n v w) σ (lb.map (fun x => (x.2.1, x.2.2))) (fun _ _ => own _)
        rw [List.map_map] at sA sB
        have tA : la.map ((fun x : Slot × Val P => (swapSlot n v w x.1, x.2)) ∘ fun x => (liftSlot n v x.2.1, x.2.2)) = la.map (fun x => (x.2.1, x.2.2)) :=
          List.map_congr_left (fun x hx => by
            show (swapSlot n v w (liftSlot n v x.2.1), x.2.2) = _
            rw [swap_second (hL.slotsA x hx).2])
        have tB : lb.map ((fun x : Slot × Val P => (swapSlot n v w x.1, x.2)) ∘ fun x => (x.2.1, x.2.2)) = lb.map (fun x => (liftSlot n w x.2.1, x.2.2)) :=
          List.map_congr_left (fun x hx => by
            show (swapSlot n v w x.2.1, x.2.2) = _
            rw [swap_first (hL.slotsB x hx).2])
        rw [tA] at sA
        rw [tB] at sB
        exact Sim.bind sA (fun _ => Sim.bind sB (fun _ => Sim.bind (translAll_sim hE σ c (Stmt.writesAll_mono (fun o _ => own o) _ (Stmt.writesAll_any _))) (fun z => Sim.pure _)))
      · intro x hx y hy
        obtain ⟨x, kx, rfl⟩ := List.mem_map.1 hx
        obtain ⟨y, ky, rfl⟩ := List.mem_map.1 hy
        have h1 := (hL.slotsB x kx).2
        have h2 := (hL.slotsA y ky).1
        show x.2.1 ≠ liftSlot n v y.2.1
        unfold liftSlot
        rw [if_neg (Nat.not_lt.2 h2)]
        exact Nat.ne_of_lt (Nat.lt_of_lt_of_le h1 (Nat.add_le_add_right h2 v))
  have hcorr : Machine.Corr (swapSlot n v w) M M := by
    refine ⟨rfl, fun _ => rfl, fun τ s => ?_⟩
    by_cases h : s < n
    · rw [hone s h]
    · have hs : first ≤ s := Nat.le_trans hn (Nat.not_lt.1 h)
      have : n ≤ swapSlot n v w s := by
        refine Nat.not_lt.1 (fun h' => h ?_)
        have h2 := swap_swap n v w s
        rw [swap_low h'] at h2
        rwa [h2] at h'
      rw [hM τ s hs, hM τ _ (Nat.le_trans hn this)]
  rw [hcore, hcore, Comp.bind_run, Comp.bind_run]
  obtain ⟨r1, r2⟩ := hsim M M hcorr
  generalize core (envAt ops (fun i => (Γ i).reslot (swapSlot n w v)) k) (d ++ .xblock m1 moB b :: .xblock m2 moA (a.reslot (liftSlot n v)) :: c) M = x at r1 r2 ⊢
  generalize core (envAt ops Γ k) (d ++ .xblock m1 moA a :: .xblock m2 moB (b.reslot (liftSlot n w)) :: Stmt.reslotAll (swapSlot n v w) c) M = y at r1 r2 ⊢
  obtain ⟨r, M1⟩ := x
  obtain ⟨r', M2⟩ := y
  have r1 : r = r' := r1
  subst r1
  cases r with
  | raise e => exact ⟨.raise e, r2.mem⟩
  | timeout => exact ⟨.timeout, r2.mem⟩
  | ok root =>
    have hnd : ∀ l : List (Str × SlotInfo), (((Dict.update [] l).map (fun p => (p.1, p.2.id))).map Prod.fst).Nodup := fun l => by
      rw [List.map_map]
      exact Dict.nodup_update (d := ([] : Dict Str SlotInfo)) (by simp [Dict.keys]) _
    obtain ⟨s1, u1, _, u2⟩ := readSymbols_spec (X := X) σ ((Dict.update [] (o1 ++ β ++ reslotBinds (liftSlot n v) α ++ o2)).map (fun p => (p.1, p.2.id))) M1
    obtain ⟨s2, v1, _, v2⟩ := readSymbols_spec (X := X) σ
      ((Dict.update [] (o1 ++ α ++ reslotBinds (liftSlot n w) β ++ reslotBinds (swapSlot n v w) o2)).map (fun p => (p.1, p.2.id))) M2
    simp only [Comp.next, Comp.bind_run, u1, v1]
    refine ⟨.ok root (fun y => ?_), r2.mem⟩
    rw [(u2 (hnd _)).2 y, (v2 (hnd _)).2 y, exports_swap hL.outs1 hL.outsA hL.outsB hL.apart y]
    cases Dict.get? ((Dict.update [] (o1 ++ β ++ reslotBinds (liftSlot n v) α ++ o2)).map (fun p => (p.1, p.2.id))) y with
    | none => rfl
    | some t => exact r2.val σ t

/-- Two declarations, one below the other, none of which mentions what the other declares. When they change places -- the blank lines above stay where they are -- then the same
faults are found below; when there is none, the same nodes are made, with the same contents, or the same exception is raised, whatever python does, and the same symbols are exported
with the same values. -/
theorem C128_document (hg : ∀ x ∈ g, validSymbol x.1 = true) {m1 m2 : Str} {moA moB : Option Modifier} {A B : Stmt P} (dA : Declaration A) (dB : Declaration B)
    (hm : Stmt.MadeDocument mk U (ss1 ++ .xblock m1 moA A :: .xblock m2 moB B :: ss2))
    (hA : A.onlyNames src (fun y => y ∉ B.defines src)) (hB : B.onlyNames src (fun y => y ∉ A.defines src)) (hx : Stmt.noContextAll ss2) (first : Slot)
    {doc0 : Document P} (h0 : analyseDocument src first g (ss1 ++ [.xblock m1 moA A, .xblock m2 moB B]) = .ok doc0) :
    (∀ e, analyseDocument src first g (ss1 ++ .xblock m1 moA A :: .xblock m2 moB B :: ss2) = .error e ↔
      analyseDocument src first g (ss1 ++ .xblock m1 moB B :: .xblock m2 moA A :: ss2) = .error e) ∧
    ∀ doc, analyseDocument src first g (ss1 ++ .xblock m1 moA A :: .xblock m2 moB B :: ss2) = .ok doc →
      ∃ doc', analyseDocument src first g (ss1 ++ .xblock m1 moB B :: .xblock m2 moA A :: ss2) = .ok doc' ∧
        ∀ (ops : PyOps P X W) (Γ : DefId → DefInfo P), Enrolled Γ doc → (∀ i, i ∉ (Stmt.defsAll doc.children).map Prod.fst → (Γ i).below first) →
          ∃ Γ' : DefId → DefInfo P, Enrolled Γ' doc' ∧ (∀ i, i ∉ (Stmt.defsAll doc.children).map Prod.fst → Γ' i = Γ i) ∧
            ∀ (k : Nat) (σ : StateId) (M : Machine P W), M.FreshFrom first →
              SameOutcome (translDocument (envAt ops Γ' k) σ doc' M).1 (translDocument (envAt ops Γ k) σ doc M).1 ∧
              (translDocument (envAt ops Γ' k) σ doc' M).2.mem = (translDocument (envAt ops Γ k) σ doc M).2.mem := by
  have ht : Stmt.tailsAll Stmt.bare (ss1 ++ .xblock m1 moA A :: .xblock m2 moB B :: ss2) := Stmt.MadeAll.tailsOf (fun _ h => h.bare) hm.2
  have h := swap_alike hg dA dB ht hA hB hx first h0
  refine ⟨h.1, fun doc hd => ?_⟩
  obtain ⟨doc', e, _, k⟩ := h.2 doc hd
  exact ⟨doc', e, k X W⟩

/-! #### Any number of declarations -/

/-- Neither block mentions what the other one declares. -/
def Unrelated (src : Source P I) (a b : Option Modifier × Stmt P) : Prop :=
  a.2.onlyNames src (fun y => y ∉ b.2.defines src) ∧ b.2.onlyNames src (fun y => y ∉ a.2.defines src)

theorem tailsAll_join {a b : List (Stmt P)} (ha : Stmt.tailsAll Stmt.bare a) (hb : Stmt.tailsAll Stmt.bare b) : Stmt.tailsAll Stmt.bare (a ++ b) := by
  induction a with
  | nil => exact hb
  | cons s a ih =>
    simp only [List.cons_append, Stmt.tailsAll] at ha ⊢
    exact ⟨ha.1, ih ha.2⟩

theorem tails_placed : ∀ (ms : List Str) (ds : List (Option Modifier × Stmt P)), (∀ d ∈ ds, d.2.tails Stmt.bare) → Stmt.tailsAll Stmt.bare (placedBlocks ms ds)
  | [], _, _ => by simp only [placedBlocks, Stmt.tailsAll]
  | _ :: _, [], _ => by simp only [placedBlocks, Stmt.tailsAll]
  | m :: ms, d :: ds, h => by
    simp only [placedBlocks, Stmt.tailsAll, Stmt.tails]
    exact ⟨h d (by simp), tails_placed ms ds (fun x hx => h x (by simp [hx]))⟩

theorem placed_tails : ∀ (ms : List Str) (ds : List (Option Modifier × Stmt P)), ms.length = ds.length → Stmt.tailsAll Stmt.bare (placedBlocks ms ds) → ∀ d ∈ ds, d.2.tails Stmt.bare
  | [], [], _, _ => by simp
  | m :: ms, d :: ds, hl, h => by
    simp only [placedBlocks, Stmt.tailsAll, Stmt.tails] at h
    intro x hx
    rcases List.mem_cons.1 hx with rfl | hx
    · exact h.1
    · exact placed_tails ms ds (Nat.succ.inj hl) h.2 x hx

theorem noContext_placed {ss : List (Stmt P)} (hs : Stmt.noContextAll ss) : ∀ (ms : List Str) (ds : List (Option Modifier × Stmt P)),
    (∀ d ∈ ds, d.2.noContext) → Stmt.noContextAll (placedBlocks ms ds ++ ss)
  | [], _, _ => by simp only [placedBlocks, List.nil_append]; exact hs
  | _ :: _, [], _ => by simp only [placedBlocks, List.nil_append]; exact hs
  | m :: ms, d :: ds, h => by
    simp only [placedBlocks, List.cons_append, Stmt.noContextAll, Stmt.noContext]
    exact ⟨h d (by simp), noContext_placed hs ms ds (fun x hx => h x (by simp [hx]))⟩

/-- A part of a script without faults, up to some block, has none. -/
theorem analysed_above (hg : ∀ x ∈ g, validSymbol x.1 = true) (first : Slot) {a b : List (Stmt P)} {doc : Document P} (h : analyseDocument src first g (a ++ b) = .ok doc) :
    ∃ doc', analyseDocument src first g a = .ok doc' := by
  rw [analyseDocument_open hg, analyseAll_append] at h
  rw [analyseDocument_open hg]
  cases e : analyseAll src a (openCtx first g) with
  | error x => rw [e] at h; cases h
  | ok r => exact ⟨_, rfl⟩

theorem order_alike (hg : ∀ x ∈ g, validSymbol x.1 = true) (first : Slot) {ds ds' : List (Option Modifier × Stmt P)} (hp : ds.Perm ds') :
    ∀ (ms : List Str) (ss1 : List (Stmt P)), ms.length = ds.length → (∀ d ∈ ds, Declaration d.2 ∧ d.2.noContext ∧ d.2.tails Stmt.bare) → ds.Pairwise (Unrelated src) →
      Stmt.tailsAll Stmt.bare ss1 → (∃ doc0, analyseDocument src first g (ss1 ++ placedBlocks ms ds) = .ok doc0) →
      ∀ ss2, Stmt.tailsAll Stmt.bare ss2 → Stmt.noContextAll ss2 → SameScripts src g first (ss1 ++ placedBlocks ms ds ++ ss2) (ss1 ++ placedBlocks ms ds' ++ ss2) := by
  have sym : ∀ {a b : Option Modifier × Stmt P}, Unrelated src a b → Unrelated src b a := fun h => ⟨h.2, h.1⟩
  induction hp with
  | nil => intro ms ss1 _ _ _ _ _ ss2 _ _; exact .refl ..
  | @cons x l1 l2 p ih =>
    intro ms ss1 hl hd hi ht1 h0 ss2 ht2 hx
    cases ms with
    | nil => cases hl
    | cons m ms =>
      simp only [placedBlocks] at h0 ⊢
      have e : ∀ l : List (Stmt P), ss1 ++ .xblock m x.1 x.2 :: l = (ss1 ++ [.xblock m x.1 x.2]) ++ l := fun l => by simp
      rw [e] at h0
      rw [e (placedBlocks ms l1), e (placedBlocks ms l2)]
      refine ih ms (ss1 ++ [.xblock m x.1 x.2]) (Nat.succ.inj hl) (fun d hd' => hd d (by simp [hd'])) (List.pairwise_cons.1 hi).2
        (tailsAll_join ht1 ?_) h0 ss2 ht2 hx
      simp only [Stmt.tailsAll, Stmt.tails]
      exact ⟨(hd x (by simp)).2.2, trivial⟩
  | swap x y l =>
    intro ms ss1 hl hd hi ht1 h0 ss2 ht2 hx
    match ms, hl with
    | m1 :: m2 :: ms, hl =>
      simp only [placedBlocks] at h0 ⊢
      obtain ⟨doc0, h0⟩ := h0
      rw [show ss1 ++ .xblock m1 y.1 y.2 :: .xblock m2 x.1 x.2 :: placedBlocks ms l = (ss1 ++ [.xblock m1 y.1 y.2, .xblock m2 x.1 x.2]) ++ placedBlocks ms l by simp] at h0
      obtain ⟨d1, h1⟩ := analysed_above hg first h0
      simp only [List.append_assoc, List.cons_append]
      have ha := (List.pairwise_cons.1 hi).1 x (by simp)
      refine swap_alike hg (hd y (by simp)).1 (hd x (by simp)).1 (tailsAll_join ht1 ?_) ha.1 ha.2
        (noContext_placed hx ms l (fun d h => (hd d (by simp [h])).2.1)) first h1
      simp only [Stmt.tailsAll, Stmt.tails]
      exact ⟨(hd y (by simp)).2.2, (hd x (by simp)).2.2, tailsAll_join (tails_placed ms l (fun d h => (hd d (by simp [h])).2.2)) ht2⟩
  | trans p q ih1 ih2 =>
    intro ms ss1 hl hd hi ht1 h0 ss2 ht2 hx
    refine (ih1 ms ss1 hl hd hi ht1 h0 ss2 ht2 hx).trans (ih2 ms ss1 (hl.trans p.length_eq) (fun d h => hd d (p.mem_iff.2 h)) ((p.pairwise_iff sym).1 hi) ht1 ?_ ss2 ht2 hx)
    obtain ⟨doc0, h0⟩ := h0
    have := (ih1 ms ss1 hl hd hi ht1 ⟨doc0, h0⟩ [] (by simp only [Stmt.tailsAll]) (by simp only [Stmt.noContextAll])).2 doc0
    simp only [List.append_nil] at this
    obtain ⟨doc', h, _⟩ := this h0
    exact ⟨doc', h⟩

/-- Any number of declarations, one below the other, none of which mentions what another one declares: they may stand in any order. -/
theorem C128_order (hg : ∀ x ∈ g, validSymbol x.1 = true) {ms : List Str} {ds ds' : List (Option Modifier × Stmt P)} (hp : ds.Perm ds') (hl : ms.length = ds.length)
    (hd : ∀ d ∈ ds, Declaration d.2 ∧ d.2.noContext) (hi : ds.Pairwise (fun a b => a.2.onlyNames src (fun y => y ∉ b.2.defines src) ∧ b.2.onlyNames src (fun y => y ∉ a.2.defines src)))
    (hm : Stmt.MadeDocument mk U (ss1 ++ placedBlocks ms ds ++ ss2)) (hx : Stmt.noContextAll ss2) (first : Slot)
    {doc0 : Document P} (h0 : analyseDocument src first g (ss1 ++ placedBlocks ms ds) = .ok doc0) :
    (∀ e, analyseDocument src first g (ss1 ++ placedBlocks ms ds ++ ss2) = .error e ↔ analyseDocument src first g (ss1 ++ placedBlocks ms ds' ++ ss2) = .error e) ∧
    ∀ doc, analyseDocument src first g (ss1 ++ placedBlocks ms ds ++ ss2) = .ok doc →
      ∃ doc', analyseDocument src first g (ss1 ++ placedBlocks ms ds' ++ ss2) = .ok doc' ∧
        ∀ (ops : PyOps P X W) (Γ : DefId → DefInfo P), Enrolled Γ doc → (∀ i, i ∉ (Stmt.defsAll doc.children).map Prod.fst → (Γ i).below first) →
          ∃ Γ' : DefId → DefInfo P, Enrolled Γ' doc' ∧ (∀ i, i ∉ (Stmt.defsAll doc.children).map Prod.fst → Γ' i = Γ i) ∧
            ∀ (k : Nat) (σ : StateId) (M : Machine P W), M.FreshFrom first →
              SameOutcome (translDocument (envAt ops Γ' k) σ doc' M).1 (translDocument (envAt ops Γ k) σ doc M).1 ∧
              (translDocument (envAt ops Γ' k) σ doc' M).2.mem = (translDocument (envAt ops Γ k) σ doc M).2.mem := by
  have ht : Stmt.tailsAll Stmt.bare (ss1 ++ placedBlocks ms ds ++ ss2) := Stmt.MadeAll.tailsOf (fun _ h => h.bare) hm.2
  obtain ⟨ht, ht2⟩ := tailsAll_both ht
  obtain ⟨ht1, htd⟩ := tailsAll_both ht
  have h := order_alike hg first hp ms ss1 hl (fun d h => ⟨(hd d h).1, (hd d h).2, placed_tails ms ds hl htd d h⟩) hi ht1 ⟨doc0, h0⟩ ss2 ht2 hx
  refine ⟨h.1, fun doc hd => ?_⟩
  obtain ⟨doc', e, _, k⟩ := h.2 doc hd
  exact ⟨doc', e, k X W⟩

end

end

/-! #### Examples -/

namespace SwapEx
open MentionsEx IndependentEx UnusedImportEx

-- two definitions, and imports, in either order
example : (written (s!!"| a\n%H t\n    p | {t}-{x}\n%K t\n    $w = t\n    p | <{w}>\nH 'b'\nK 'c'")).isSome = true ∧
    written (s!!"| a\n%H t\n    p | {t}-{x}\n%K t\n    $w = t\n    p | <{w}>\nH 'b'\nK 'c'") =
      written (s!!"| a\n%K t\n    $w = t\n    p | <{w}>\n%H t\n    p | {t}-{x}\nH 'b'\nK 'c'") := by decide +kernel

example : (written (s!!"%H t\n    p | {t}-{x}\n\nfrom lib import *, $a as q\nH q\n| $a")).isSome = true ∧
    written (s!!"%H t\n    p | {t}-{x}\n\nfrom lib import *, $a as q\nH q\n| $a") =
      written (s!!"from lib import *, $a as q\n\n%H t\n    p | {t}-{x}\nH q\n| $a") := by decide +kernel

-- the order matters when one mentions what the other declares
example : (written (s!!"from lib import $a as q\n%H\n    | $q\nH")).isSome = true ∧ written (s!!"%H\n    | $q\nfrom lib import $a as q\nH") = none := by decide +kernel

-- ... even if both are known above
example : written (s!!"from lib import $a as x\n%H\n    | $x\nH") = some (s!!"A") ∧ (written (s!!"%H\n    | $x\nfrom lib import $a as x\nH")).isSome = true ∧
    written (s!!"%H\n    | $x\nfrom lib import $a as x\nH") ≠ some (s!!"A") := by decide +kernel

/-- `%K t` with `{t}` below. -/
def hypertag : Stmt Toy.Obj := .defn 7 (s!!"K") none none [⟨s!!"t", none, none⟩] (.body [.xblock [] none (.exprBlock (.varUse (s!!"t") none))])

/-- `from lib import *, $a as q`. -/
def imported : Stmt Toy.Obj := .imports false (some (s!!"lib")) items

theorem made_all : Stmt.MadeDocument defaultMarks asciiUni (before ++ .xblock (s!!"\n") none hypertag :: .xblock [] none imported :: parsed) := by
  have hx : Ident (s!!"x") := ⟨'x', [], rfl, by decide +kernel, by simp⟩
  have hy : Ident (s!!"y") := ⟨'y', [], rfl, by decide +kernel, by simp⟩
  have hz : Ident (s!!"z") := ⟨'z', [], rfl, by decide +kernel, by simp⟩
  have hq : Ident (s!!"q") := ⟨'q', [], rfl, by decide +kernel, by simp⟩
  have ht : Ident (s!!"t") := ⟨'t', [], rfl, by decide +kernel, by simp⟩
  have hK : Ident (s!!"K") := ⟨'K', [], rfl, by decide +kernel, by simp⟩
  have ha : MarkedName (s!!"$a") := ⟨'$', s!!"a", rfl, by simp, ⟨'a', [], rfl, by decide +kernel, by simp⟩⟩
  refine ⟨⟨before ++ .xblock (s!!"\n") none hypertag :: .xblock [] none imported :: parsed, [], (List.append_nil _).symm, WellNested.one (by rfl) (WellNested.one (by rfl)
    (WellNested.one (by rfl) (WellNested.one (by rfl) (WellNested.one (by rfl) .nil)))), by simp, by simp⟩, ?_⟩
  simp [before, hypertag, imported, items, parsed, Stmt.MadeAll, Stmt.Made, Stmt.role, Newlines, Target.Made, Target.MadeAll, Expr.Made, AttrDef.Made, ImportItem.Made,
    hx, hy, hz, hq, ht, hK, ha]
  exact ⟨by simp [Expr.MadeOpt], .inr rfl, [], _, rfl, by simp, by simp, WellNested.one (by rfl) .nil⟩

theorem hypertag_defines : hypertag.defines library = [s!!"%K"] := by decide +kernel
theorem imported_defines : imported.defines library = [s!!"$a", s!!"%b", s!!"$q"] := by decide +kernel

-- the theorem applies: the slots of the definition, 4 and 5, and those of imports, 6 to 8, are exchanged
example : ∃ doc', analyseDocument library 0 builtins (before ++ .xblock (s!!"\n") none imported :: .xblock [] none hypertag :: parsed) = .ok doc' ∧
    doc'.slotsOut = [(s!!"$z", 3), (s!!"$a", 4), (s!!"%b", 5), (s!!"$q", 6), (s!!"%K", 8), (s!!"$y", 9)] := by
  obtain ⟨_, h⟩ := C128_document (X := Str) (W := Unit) (src := library) (g := builtins) (A := hypertag) (B := imported) (by decide +kernel) (.hypertag ..) (.imports ..) made_all
    (by
      rw [imported_defines]
      simp [hypertag, Stmt.onlyNames, Stmt.onlyNamesAll, Expr.uses, AttrDef.onlyNames, Expr.usesOpt])
    (by
      rw [hypertag_defines]
      have : wildNames library (some (s!!"lib")) = [s!!"$a", s!!"%b"] := by decide +kernel
      simp [imported, items, Stmt.onlyNames, ImportItem.onlyNames, this]
      decide +kernel)
    (by simp [parsed, Stmt.noContextAll, Stmt.noContext]) 0
    (doc0 := ⟨fills 0 builtins, _, [(s!!"$z", 3), (s!!"%K", 5), (s!!"$a", 6), (s!!"%b", 7), (s!!"$q", 8)]⟩) rfl
  cases e : analyseDocument library 0 builtins (before ++ .xblock (s!!"\n") none hypertag :: .xblock [] none imported :: parsed) with
  | error x =>
    have : (analyseDocument library 0 builtins (before ++ .xblock (s!!"\n") none hypertag :: .xblock [] none imported :: parsed)).toOption.isSome = true := by decide +kernel
    rw [e] at this
    cases this
  | ok doc =>
    obtain ⟨doc', a, _⟩ := h _ e
    have q : (analyseDocument library 0 builtins (before ++ .xblock (s!!"\n") none imported :: .xblock [] none hypertag :: parsed)).toOption.map Document.slotsOut =
        some [(s!!"$z", 3), (s!!"$a", 4), (s!!"%b", 5), (s!!"$q", 6), (s!!"%K", 8), (s!!"$y", 9)] := by decide +kernel
    rw [a] at q
    exact ⟨doc', a, Option.some.inj q⟩

-- three declarations
example : (written (s!!"%H t\n    p | {t}-{x}\n\nfrom lib import *, $a as q\n%K t\n    $w = t\n    p | <{w}>\nH q\nK a")).isSome = true ∧
    written (s!!"%H t\n    p | {t}-{x}\n\nfrom lib import *, $a as q\n%K t\n    $w = t\n    p | <{w}>\nH q\nK a") =
      written (s!!"%K t\n    $w = t\n    p | <{w}>\n\n%H t\n    p | {t}-{x}\nfrom lib import *, $a as q\nH q\nK a") := by decide +kernel

/-- `%L` with `{x}` below. -/
def hypertag2 : Stmt Toy.Obj := .defn 8 (s!!"L") none none [] (.body [.xblock [] none (.exprBlock (.varUse (s!!"x") none))])

theorem hypertag2_defines : hypertag2.defines library = [s!!"%L"] := by decide +kernel

theorem made_three : Stmt.MadeDocument defaultMarks asciiUni
    (before ++ placedBlocks [s!!"\n", [], []] [(none, hypertag), (none, imported), (none, hypertag2)] ++ parsed) := by
  have hx : Ident (s!!"x") := ⟨'x', [], rfl, by decide +kernel, by simp⟩
  have hy : Ident (s!!"y") := ⟨'y', [], rfl, by decide +kernel, by simp⟩
  have hz : Ident (s!!"z") := ⟨'z', [], rfl, by decide +kernel, by simp⟩
  have hq : Ident (s!!"q") := ⟨'q', [], rfl, by decide +kernel, by simp⟩
  have ht : Ident (s!!"t") := ⟨'t', [], rfl, by decide +kernel, by simp⟩
  have hK : Ident (s!!"K") := ⟨'K', [], rfl, by decide +kernel, by simp⟩
  have hL : Ident (s!!"L") := ⟨'L', [], rfl, by decide +kernel, by simp⟩
  have ha : MarkedName (s!!"$a") := ⟨'$', s!!"a", rfl, by simp, ⟨'a', [], rfl, by decide +kernel, by simp⟩⟩
  refine ⟨⟨_, [], (List.append_nil _).symm, WellNested.one (by rfl) (WellNested.one (by rfl)
    (WellNested.one (by rfl) (WellNested.one (by rfl) (WellNested.one (by rfl) (WellNested.one (by rfl) .nil))))), by simp, by simp⟩, ?_⟩
  simp [before, placedBlocks, hypertag, hypertag2, imported, items, parsed, Stmt.MadeAll, Stmt.Made, Stmt.role, Newlines, Target.Made, Target.MadeAll, Expr.Made, AttrDef.Made,
    ImportItem.Made, hx, hy, hz, hq, ht, hK, hL, ha]
  exact ⟨⟨by simp [Expr.MadeOpt], .inr rfl, [], _, rfl, by simp, by simp, WellNested.one (by rfl) .nil⟩, .inr rfl, [], _, rfl, by simp, by simp, WellNested.one (by rfl) .nil⟩

-- the theorem applies to all orders
example (ds : List (Option Modifier × Stmt Toy.Obj)) (hp : List.Perm [(none, hypertag), (none, imported), (none, hypertag2)] ds) :
    ∃ doc', analyseDocument library 0 builtins (before ++ placedBlocks [s!!"\n", [], []] ds ++ parsed) = .ok doc' := by
  have hw : wildNames library (some (s!!"lib")) = [s!!"$a", s!!"%b"] := by decide +kernel
  have hn : asName (s!!"$a") (some (s!!"q")) = s!!"$q" := by decide +kernel
  obtain ⟨_, h⟩ := C128_order (X := Str) (W := Unit) (src := library) (g := builtins) (by decide +kernel) hp rfl
    (by
      simp only [List.mem_cons, List.not_mem_nil, or_false, forall_eq_or_imp, forall_eq]
      refine ⟨⟨.hypertag .., ?_⟩, ⟨.imports .., ?_⟩, .hypertag .., ?_⟩ <;>
        simp [hypertag, imported, hypertag2, Stmt.noContext, Stmt.noContextAll])
    (by
      simp only [List.pairwise_cons, List.mem_cons, List.not_mem_nil, or_false, forall_eq_or_imp, forall_eq, hypertag_defines, imported_defines, hypertag2_defines]
      simp [hypertag, hypertag2, imported, items, Stmt.onlyNames, Stmt.onlyNamesAll, ImportItem.onlyNames, Expr.uses, AttrDef.onlyNames, Expr.usesOpt, hw, hn])
    made_three (by simp [parsed, Stmt.noContextAll, Stmt.noContext]) 0
    (doc0 := ⟨fills 0 builtins, _, [(s!!"$z", 3), (s!!"%K", 5), (s!!"$a", 6), (s!!"%b", 7), (s!!"$q", 8), (s!!"%L", 9)]⟩) rfl
  cases e : analyseDocument library 0 builtins (before ++ placedBlocks [s!!"\n", [], []] [(none, hypertag), (none, imported), (none, hypertag2)] ++ parsed) with
  | error x =>
    have : (analyseDocument library 0 builtins
      (before ++ placedBlocks [s!!"\n", [], []] [(none, hypertag), (none, imported), (none, hypertag2)] ++ parsed)).toOption.isSome = true := by decide +kernel
    rw [e] at this
    cases this
  | ok doc =>
    obtain ⟨doc', a, _⟩ := h _ e
    exact ⟨doc', a⟩

end SwapEx
end Verif
