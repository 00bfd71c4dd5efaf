import Verif.Lemmas.Judge
import Verif.Lemmas.WritesMono
import Verif.Lemmas.Dict

/-! Contexts of the analysis, and how they grow. -/

namespace Verif
open Py

section
variable {P I : Type}

/-- Bindings belong to this or an enclosing namespace; slots have been created. -/
def Ctx.WF (c : Ctx) : Prop := ∀ b ∈ c.binds, b.2.depth ≤ c.regular ∧ b.2.id < c.next

/-- `c'` is `c` with new bindings of new slots in the same namespace. -/
structure Ctx.Step (c c' : Ctx) : Prop where
  regular : c'.regular = c.regular
  control : c'.control = c.control
  hypertag : c'.hypertag = c.hypertag
  next : c.next ≤ c'.next
  binds : ∃ new, c'.binds = c.binds ++ new ∧
    ∀ b ∈ new, b.2.depth = c.regular ∧ c.next ≤ b.2.id ∧ b.2.id < c'.next

/-- The symbols bound in `c'` are those of `c` and `D`. -/
def Adds (c c' : Ctx) (D : List Str) : Prop :=
  ∀ x, x ∈ c'.binds.map Prod.fst ↔ x ∈ c.binds.map Prod.fst ∨ x ∈ D

theorem Adds.same {S : List Str} {c c' : Ctx} {D : List Str} (h : Adds c c' D)
    (hS : SameNames S c.binds) : SameNames (S ++ D) c'.binds := by
  intro x
  rw [h x, List.mem_append, hS x]

theorem Adds.nil (c : Ctx) : Adds c c [] := fun x => by simp

theorem Adds.trans {c1 c2 c3 : Ctx} {D E : List Str} (h1 : Adds c1 c2 D) (h2 : Adds c2 c3 E) :
    Adds c1 c3 (D ++ E) := fun x => by rw [h2 x, h1 x, List.mem_append, or_assoc]

namespace Ctx

theorem Step.refl (c : Ctx) : c.Step c := ⟨rfl, rfl, rfl, Nat.le_refl _, [], by simp, by simp⟩

theorem Step.trans {c1 c2 c3 : Ctx} (h1 : c1.Step c2) (h2 : c2.Step c3) : c1.Step c3 := by
  obtain ⟨n1, e1, f1⟩ := h1.binds
  obtain ⟨n2, e2, f2⟩ := h2.binds
  refine ⟨h2.regular.trans h1.regular, h2.control.trans h1.control, h2.hypertag.trans h1.hypertag,
    Nat.le_trans h1.next h2.next, n1 ++ n2, by rw [e2, e1, List.append_assoc], ?_⟩
  intro b hb
  rcases List.mem_append.1 hb with hb | hb
  · have := f1 b hb
    exact ⟨this.1, this.2.1, Nat.lt_of_lt_of_le this.2.2 h2.next⟩
  · have := f2 b hb
    exact ⟨this.1.trans h1.regular, Nat.le_trans h1.next this.2.1, this.2.2⟩

theorem Step.wf {c c' : Ctx} (h : c.Step c') (w : c.WF) : c'.WF := by
  obtain ⟨new, e, f⟩ := h.binds
  intro b hb
  rw [e] at hb
  rw [h.regular]
  rcases List.mem_append.1 hb with hb | hb
  · exact ⟨(w b hb).1, Nat.lt_of_lt_of_le (w b hb).2 h.next⟩
  · exact ⟨Nat.le_of_eq (f b hb).1, (f b hb).2.2⟩

theorem Step.take {c c' : Ctx} (h : c.Step c') : c'.binds.take c.binds.length = c.binds := by
  obtain ⟨new, e, _⟩ := h.binds
  rw [e]; simp

/-- The bindings of the context after are the ones before and new ones. -/
theorem Step.mem {c c' : Ctx} (h : c.Step c') {b} (hb : b ∈ c'.binds) :
    b ∈ c.binds ∨ (b.2.depth = c.regular ∧ c.next ≤ b.2.id ∧ b.2.id < c'.next) := by
  obtain ⟨new, e, f⟩ := h.binds
  rw [e] at hb
  rcases List.mem_append.1 hb with hb | hb
  · exact .inl hb
  · exact .inr (f b hb)

/-! ### New slots -/

theorem newSlot_post (c : Ctx) (sym : Str) : Post (fun r => c.Step r.2 ∧ Adds c r.2 [sym] ∧
    c.next ≤ r.1.id ∧ r.1.id < r.2.next) (newSlot c sym : Except (AErr I) (SlotInfo × Ctx)) := by
  unfold newSlot
  split
  · refine .ok ⟨⟨rfl, rfl, rfl, Nat.le_succ _, [(sym, _)], rfl, ?_⟩, ?_, Nat.le_refl _,
      Nat.lt_succ_self _⟩
    · intro b hb
      simp only [List.mem_singleton] at hb
      subst hb
      exact ⟨rfl, Nat.le_refl _, Nat.lt_succ_self _⟩
    · intro x; simp [push]
  · exact .error

theorem newSlot_err (c : Ctx) (sym : Str) (e : AErr I) (h : newSlot c sym = .error e) :
    ¬ e.undefined := by
  unfold newSlot at h
  split at h
  · cases h
  · cases h; exact id

theorem declare_post (c : Ctx) (sym : Str) : Post (fun r => c.Step r.2 ∧ Adds c r.2 [sym] ∧
    c.next ≤ r.1.id ∧ r.1.id < r.2.next) (declare c sym : Except (AErr I) (SlotInfo × Ctx)) := by
  unfold declare
  intro a ha
  rcases hn : (newSlot c sym : Except (AErr I) (SlotInfo × Ctx)) with e | ⟨s, c1⟩
  · rw [hn] at ha; cases ha
  · rw [hn] at ha
    have ha : (.ok (s, c1.push sym s) : Except (AErr I) (SlotInfo × Ctx)) = .ok a := ha
    cases ha
    obtain ⟨h1, h2, h3, h4⟩ := newSlot_post c sym _ hn
    have hd : s.depth = c.regular := by
      unfold newSlot at hn
      split at hn
      · cases hn; rfl
      · cases hn
    refine ⟨?_, ?_, h3, h4⟩
    · obtain ⟨new, e, f⟩ := h1.binds
      refine ⟨h1.regular, h1.control, h1.hypertag, h1.next, new ++ [(sym, s)], ?_, ?_⟩
      · simp only [push] at e ⊢
        rw [e, List.append_assoc]
      · intro b hb
        rcases List.mem_append.1 hb with hb | hb
        · exact f b hb
        · simp only [List.mem_singleton] at hb
          subst hb
          exact ⟨hd, h3, h4⟩
    · intro x
      have := h2 x
      simp only [push, List.map_append, List.mem_append, this, List.map_cons, List.map_nil,
        List.mem_singleton]
      exact ⟨fun h => h.elim id .inr, fun h => .inl h⟩

theorem declare_err (c : Ctx) (sym : Str) (e : AErr I) (h : declare c sym = .error e) :
    ¬ e.undefined := by
  unfold declare at h
  rcases hn : (newSlot c sym : Except (AErr I) (SlotInfo × Ctx)) with e' | r
  · rw [hn] at h
    have h : (.error e' : Except (AErr I) (SlotInfo × Ctx)) = .error e := h
    injection h with h
    exact h ▸ newSlot_err c sym e' hn
  · rw [hn] at h; cases h

/-! ### Slots that are written -/

/-- A binding of the present namespace. -/
def Own (c : Ctx) (sl : Slot) : Prop := ∃ b ∈ c.binds, b.2.id = sl ∧ b.2.depth = c.regular

/-- Slots that statements analysed in `c` may write: variables of the same namespace and new ones. If
`N` then statements that were not analysed are allowed. -/
def W (N : Prop) (c c' : Ctx) (o : Option Slot) : Prop :=
  (N ∧ o = none) ∨ ∃ sl, o = some sl ∧ (c.Own sl ∨ (c.next ≤ sl ∧ sl < c'.next))

/-- Slots that hypertags defined between `c` and `c'` may write: new ones that are not bound in `c'`. -/
def H (N : Prop) (c c' : Ctx) (o : Option Slot) : Prop :=
  (N ∧ o = none) ∨ ∃ sl, o = some sl ∧ c.next ≤ sl ∧ sl < c'.next ∧ ∀ b ∈ c'.binds, b.2.id ≠ sl

theorem W.right {N : Prop} {c c1 c2 : Ctx} (h : c1.next ≤ c2.next) {o} (w : W N c c1 o) :
    W N c c2 o := by
  rcases w with w | ⟨sl, rfl, w | w⟩
  · exact .inl w
  · exact .inr ⟨sl, rfl, .inl w⟩
  · exact .inr ⟨sl, rfl, .inr ⟨w.1, Nat.lt_of_lt_of_le w.2 h⟩⟩

theorem W.left {N : Prop} {c c1 c2 : Ctx} (h : c.Step c1) (h2 : c1.next ≤ c2.next) {o}
    (w : W N c1 c2 o) : W N c c2 o := by
  rcases w with w | ⟨sl, rfl, w | w⟩
  · exact .inl w
  · refine .inr ⟨sl, rfl, ?_⟩
    obtain ⟨b, hb, hi, hd⟩ := w
    rcases h.mem hb with hb | hb
    · exact .inl ⟨b, hb, hi, hd.trans h.regular⟩
    · exact .inr (hi ▸ ⟨hb.2.1, Nat.lt_of_lt_of_le hb.2.2 h2⟩)
  · exact .inr ⟨sl, rfl, .inr ⟨Nat.le_trans h.next w.1, w.2⟩⟩

theorem H.right {N : Prop} {c c1 c2 : Ctx} (h : c1.Step c2) {o} (w : H N c c1 o) : H N c c2 o := by
  rcases w with w | ⟨sl, rfl, w1, w2, w3⟩
  · exact .inl w
  · refine .inr ⟨sl, rfl, w1, Nat.lt_of_lt_of_le w2 h.next, fun b hb => ?_⟩
    rcases h.mem hb with hb | hb
    · exact w3 b hb
    · have := hb.2.1; exact Nat.ne_of_gt (Nat.lt_of_lt_of_le w2 this)

theorem H.left {N : Prop} {c c1 c2 : Ctx} (h : c.next ≤ c1.next) {o} (w : H N c1 c2 o) :
    H N c c2 o := by
  rcases w with w | ⟨sl, rfl, w1, w2, w3⟩
  · exact .inl w
  · exact .inr ⟨sl, rfl, Nat.le_trans h w1, w2, w3⟩

/-- Bindings dropped. -/
theorem H.sub {N : Prop} {c c1 c2 : Ctx} (hn : c1.next ≤ c2.next) (h : ∀ b ∈ c2.binds, b ∈ c1.binds)
    {o} (w : H N c c1 o) : H N c c2 o := by
  rcases w with w | ⟨sl, rfl, w1, w2, w3⟩
  · exact .inl w
  · exact .inr ⟨sl, rfl, w1, Nat.lt_of_lt_of_le w2 hn, fun b hb => w3 b (h b hb)⟩

/-! ### The end of a block -/

theorem leave_binds {c c1 c' : Ctx} (hb : c1.binds = c.binds) (h : c1.Step c') :
    (c.leave c').binds = c.binds := by
  have := h.take
  rw [hb] at this
  exact this

theorem leave_step {c c1 c' : Ctx} (hb : c1.binds = c.binds) (hn : c1.next = c.next)
    (hc : c1.control = c.control) (h : c1.Step c') : c.Step (c.leave c') :=
  ⟨rfl, h.control.trans hc, rfl, hn ▸ h.next, [], by rw [leave_binds hb h]; simp, by simp⟩

theorem mem_set {d : Dict Str SlotInfo} {k : Str} {v : SlotInfo} {p : Str × SlotInfo}
    (h : p ∈ Dict.set d k v) : p ∈ d ∨ p = (k, v) := by
  induction d with
  | nil => simp only [Dict.set, List.mem_singleton] at h; exact .inr h
  | cons a d ih =>
    obtain ⟨k', v'⟩ := a
    simp only [Dict.set] at h
    split at h
    · rename_i hk
      rcases List.mem_cons.1 h with h | h
      · exact .inr (by rw [h, hk])
      · exact .inl (List.mem_cons_of_mem _ h)
    · rcases List.mem_cons.1 h with h | h
      · exact .inl (by rw [h]; exact List.mem_cons_self ..)
      · exact (ih h).elim (fun h => .inl (List.mem_cons_of_mem _ h)) .inr

theorem mem_update {l : List (Str × SlotInfo)} {d : Dict Str SlotInfo} {p : Str × SlotInfo}
    (h : p ∈ Dict.update d l) : p ∈ d ∨ p ∈ l := by
  induction l generalizing d with
  | nil => exact .inl h
  | cons a l ih =>
    obtain ⟨k, v⟩ := a
    simp only [Dict.update] at h
    rcases ih h with h | h
    · rcases mem_set h with h | h
      · exact .inl h
      · exact .inr (h ▸ List.mem_cons_self ..)
    · exact .inr (List.mem_cons_of_mem _ h)

theorem keys_update (d : Dict Str SlotInfo) (l : List (Str × SlotInfo)) (x : Str) :
    x ∈ (Dict.update d l).map Prod.fst ↔ x ∈ d.map Prod.fst ∨ x ∈ l.map Prod.fst := by
  induction l generalizing d with
  | nil => simp [Dict.update]
  | cons a l ih =>
    obtain ⟨k, v⟩ := a
    simp only [Dict.update, ih, List.map_cons, List.mem_cons]
    have : x ∈ (Dict.set d k v).map Prod.fst ↔ x ∈ d.map Prod.fst ∨ x = k := by
      have h := Dict.keys_set d k v
      unfold Dict.keys at h
      rw [h]
      split
      · rename_i hk
        exact ⟨.inl, fun h => h.elim id (fun h => h ▸ hk)⟩
      · simp
    rw [this, or_assoc]

theorem pushnew_frame (c : Ctx) (ps : List (Str × SlotInfo)) :
    (c.pushnew ps).regular = c.regular ∧ (c.pushnew ps).control = c.control ∧
    (c.pushnew ps).hypertag = c.hypertag ∧ (c.pushnew ps).next = c.next ∧
    ∃ new, (c.pushnew ps).binds = c.binds ++ new ∧ ∀ b ∈ new, b ∈ ps := by
  induction ps generalizing c with
  | nil => exact ⟨rfl, rfl, rfl, rfl, [], by simp [pushnew], by simp⟩
  | cons a ps ih =>
    obtain ⟨k, v⟩ := a
    simp only [pushnew]
    split
    · obtain ⟨h1, h2, h3, h4, new, e, f⟩ := ih c
      exact ⟨h1, h2, h3, h4, new, e, fun b hb => List.mem_cons_of_mem _ (f b hb)⟩
    · obtain ⟨h1, h2, h3, h4, new, e, f⟩ := ih (c.push k v)
      refine ⟨h1, h2, h3, h4, (k, v) :: new, by rw [e]; simp [push], fun b hb => ?_⟩
      rcases List.mem_cons.1 hb with rfl | hb
      · exact List.mem_cons_self ..
      · exact List.mem_cons_of_mem _ (f b hb)

theorem pushnew_adds (c : Ctx) (ps : List (Str × SlotInfo)) :
    Adds c (c.pushnew ps) (ps.map Prod.fst) := by
  induction ps generalizing c with
  | nil => intro x; simp [pushnew]
  | cons a ps ih =>
    obtain ⟨k, v⟩ := a
    simp only [pushnew]
    intro x
    split
    · rename_i hk
      have hk := (lookupBind_isSome c.binds k).1 hk
      rw [ih c x, List.map_cons, List.mem_cons]
      refine ⟨fun h => h.elim .inl (fun h => .inr (.inr h)), fun h => ?_⟩
      rcases h with h | rfl | h
      · exact .inl h
      · exact .inl hk
      · exact .inr h
    · rw [ih (c.push k v) x]
      simp only [push, List.map_append, List.map_cons, List.map_nil, List.mem_append,
        List.mem_cons, List.not_mem_nil, or_false]
      rw [or_assoc]

theorem drop_mem {c c' : Ctx} (h : c.Step c') {b} (hb : b ∈ c'.binds.drop c.binds.length) :
    b ∈ c'.binds ∧ b.2.depth = c.regular ∧ c.next ≤ b.2.id ∧ b.2.id < c'.next := by
  obtain ⟨new, e, f⟩ := h.binds
  rw [e, List.drop_left] at hb
  exact ⟨by rw [e]; exact List.mem_append_right _ hb, f b hb⟩

theorem merge_step {c c' : Ctx} (h : c.Step c') : c.Step (c.mergeBranch c') := by
  obtain ⟨h1, h2, h3, h4, new, e, f⟩ := pushnew_frame
    { c' with binds := c'.binds.take c.binds.length } (Dict.update [] (c'.binds.drop c.binds.length))
  refine ⟨h1.trans h.regular, h2.trans h.control, h3.trans h.hypertag, ?_, new, ?_, ?_⟩
  · unfold mergeBranch; rw [h4]; exact h.next
  · unfold mergeBranch; rw [e]; simp only [h.take]
  · intro b hb
    have hu := (mem_update (f b hb)).elim (fun h => absurd h (by simp)) id
    have := drop_mem h hu
    unfold mergeBranch
    rw [h4]
    exact this.2

theorem merge_next {c c' : Ctx} : (c.mergeBranch c').next = c'.next := by
  obtain ⟨_, _, _, h4, _⟩ := pushnew_frame
    { c' with binds := c'.binds.take c.binds.length } (Dict.update [] (c'.binds.drop c.binds.length))
  exact h4

theorem merge_sub {c c' : Ctx} (h : c.Step c') : ∀ b ∈ (c.mergeBranch c').binds, b ∈ c'.binds := by
  obtain ⟨h1, h2, h3, h4, new, e, f⟩ := pushnew_frame
    { c' with binds := c'.binds.take c.binds.length } (Dict.update [] (c'.binds.drop c.binds.length))
  intro b hb
  unfold mergeBranch at hb
  rw [e] at hb
  rcases List.mem_append.1 hb with hb | hb
  · exact List.mem_of_mem_take hb
  · have hu := (mem_update (f b hb)).elim (fun h => absurd h (by simp)) id
    exact (drop_mem h hu).1

theorem merge_adds {c c' : Ctx} (h : c.Step c') {D : List Str} (hD : Adds c c' D) :
    Adds c (c.mergeBranch c') D := by
  intro x
  unfold mergeBranch
  rw [pushnew_adds _ _ x, keys_update]
  simp only [h.take, List.map_nil, List.not_mem_nil, false_or]
  rw [← hD x]
  obtain ⟨new, e, f⟩ := h.binds
  rw [e, List.drop_left, List.map_append, List.mem_append]

end Ctx
end
end Verif
