import Verif.Lemmas.ReslotDoc
import Verif.Lemmas.Grows

/-! Analysis of two scripts in one document. -/

set_option linter.unusedSectionVars false

namespace Verif
open Py Spec

section
variable {P I X W : Type} {src : Source P I} {g : Dict Str (Val P)}

/-- The context of a document when analysis of its statements begins. -/
def openCtx (first : Slot) (g : Dict Str (Val P)) : Ctx := { binds := seats first g, next := first + g.length }

theorem seats_length (g : List (Str × Val P)) (n : Slot) : (seats n g).length = g.length := by
  have := congrArg List.length (seats_names g n)
  simpa using this

/-- The symbols exported. -/
def exportsOf (k : Nat) (c : Ctx) : List (Str × Slot) := (Dict.update [] (c.binds.drop k)).map (fun p => (p.1, p.2.id))

theorem analyseDocument_open (hv : ∀ x ∈ g, validSymbol x.1 = true) (first : Slot) (ss : List (Stmt P)) :
    analyseDocument src first g ss = (do
      let r ← analyseAll src ss (openCtx first g)
      return { slotsIn := fills first g, children := r.1, slotsOut := exportsOf g.length r.2 }) := by
  obtain ⟨l, h1, h2⟩ := valueSlots_exact (I := I) g hv { next := first } rfl
  unfold analyseDocument
  rw [h1]
  show (analyseAll src ss { binds := [] ++ seats first g, next := first + g.length } >>= _) = _
  rw [List.nil_append]
  unfold openCtx exportsOf
  cases analyseAll src ss { binds := seats first g, next := first + g.length } with
  | error e => rfl
  | ok r =>
    show Except.ok _ = Except.ok _
    congr 2
    simp only [seats_length]

/-- Analysis of the first script. -/
structure Opened (src : Source P I) (first : Slot) (g : Dict Str (Val P)) (ss ss' : List (Stmt P)) (r : List (Str × SlotInfo)) (c2 : Ctx) : Prop where
  binds : c2.binds = seats first g ++ r
  names : ∀ x ∈ r, x.1 ∈ Stmt.definesAll src ss
  below : ∀ x ∈ c2.binds, x.2.id < c2.next
  regular : c2.regular = 0
  control : c2.control = 0
  hypertag : c2.hypertag = 0
  next : first + g.length ≤ c2.next
  neat : NeatAll (first + g.length) c2.next ss'

theorem reslot_id (o : Option SlotInfo) : o.map (SlotInfo.reslot id) = o := by
  cases o <;> rfl

theorem reslotBinds_id (l : List (Str × SlotInfo)) : reslotBinds id l = l := by
  unfold reslotBinds
  exact map_fix (fun x _ => rfl)

theorem opened (first : Slot) {ss : List (Stmt P)} (ht : Stmt.tailsAll Stmt.bare ss) (hb : ∀ y ∈ Stmt.definesAll src ss, y ∉ g.map Prod.fst)
    {ss' : List (Stmt P)} {c2 : Ctx} (h : analyseAll src ss (openCtx first g) = .ok (ss', c2)) : ∃ r, Opened src first g ss ss' r c2 := by
  have hS : Seating id (fun _ => True) (first + g.length) (seats first g) (seats first g) :=
    ⟨fun y _ => (reslot_id _).symm, fun _ x hx => (seats_mem g first x hx).1⟩
  have hc : Ctx.Seat id (fun _ => True) (first + g.length) True (seats first g) (seats first g) (openCtx first g) (openCtx first g) :=
    ⟨⟨[], by simp [openCtx], by simp [openCtx, reslotBinds], by simp⟩, rfl, rfl, rfl, fun _ => rfl, rfl, fun _ _ => rfl, Nat.le_refl _,
      fun x hx => (seats_mem g first x hx).2.2⟩
  obtain ⟨r, e, hr⟩ := ((analyseAll_grows src ss (openCtx first g)) _ h).binds
  have hg := (analyseAll_grows src ss (openCtx first g)) _ h
  rcases analyseAll_seated (src := src) hS ss _ _ hc (Stmt.onlyNamesAll_any src ss) ht (.inl trivial)
    (fun _ y hy _ => by rw [seats_names]; exact hb y hy) with ⟨e', h1, _⟩ | ⟨a, c, c', h1, h2, h3, h4, h5⟩
  · rw [h] at h1; cases h1
  · rw [h] at h1
    cases h1
    exact ⟨r, e, hr, h3.below, hg.regular, hg.control, hg.hypertag, h4.1, h5⟩

/-- The slots of the second script, where the builtins have their own slots, and in the joint document. -/
def joinSlot (first m k : Slot) (s : Slot) : Slot := if s < m then s else if s < m + k then s - m + first else s - k

theorem joinSlot_low {first m k s : Slot} (h : s < m) : joinSlot first m k s = s := by unfold joinSlot; rw [if_pos h]

theorem joinSlot_mid {first m k : Slot} (i : Nat) (h : i < k) : joinSlot first m k (m + i) = first + i := by
  unfold joinSlot
  rw [if_neg (Nat.not_lt.2 (Nat.le_add_right m i)), if_pos (Nat.add_lt_add_left h m), Nat.add_sub_cancel_left, Nat.add_comm]

theorem joinSlot_high {first m k s : Slot} (h : m + k ≤ s) : joinSlot first m k s = s - k := by
  unfold joinSlot
  rw [if_neg (Nat.not_lt.2 (Nat.le_trans (Nat.le_add_right m k) h)), if_neg (Nat.not_lt.2 h)]

/-- Cases for a slot. -/
theorem joinSlot_cases (first m k s : Nat) : (s < m ∧ joinSlot first m k s = s) ∨ (∃ i : Nat, i < k ∧ s = m + i ∧ joinSlot first m k s = first + i) ∨
    (∃ i : Nat, s = m + k + i ∧ joinSlot first m k s = m + i) := by
  by_cases h1 : s < m
  · exact .inl ⟨h1, joinSlot_low h1⟩
  · by_cases h2 : s < m + k
    · refine .inr (.inl ⟨s - m, by omega, by omega, ?_⟩)
      have := joinSlot_mid (first := first) (m := m) (k := k) (s - m) (by show s - m < k; omega)
      rw [← this]
      congr 1
      show s = m + (s - m)
      omega
    · refine .inr (.inr ⟨s - (m + k), by omega, ?_⟩)
      rw [joinSlot_high (by show m + k ≤ s; omega)]
      show s - k = m + (s - (m + k))
      omega

/-- Slots written by either script, or by other documents, are told apart. -/
theorem joinSlot_own {first m k : Nat} (hm : first + k ≤ m) {o : Option Slot}
    (ho : ∀ sl : Nat, o = some sl → sl < first ∨ (first + k ≤ sl ∧ sl < m) ∨ m + k ≤ sl) : Own (joinSlot first m k) o := by
  intro sl e s hs
  have h := ho sl e
  rcases joinSlot_cases first m k s with ⟨a1, a2⟩ | ⟨i, a1, a2, a3⟩ | ⟨i, a1, a2⟩ <;>
    rcases joinSlot_cases first m k sl with ⟨b1, b2⟩ | ⟨j, b1, b2, b3⟩ | ⟨j, b1, b2⟩
  · rw [a2, b2] at hs; exact hs
  · rw [a2, b3] at hs; have hs : @Eq Nat (s) (first + j) := hs; show @Eq Nat s sl; omega
  · rw [a2, b2] at hs; have hs : @Eq Nat (s) (m + j) := hs; show @Eq Nat s sl; omega
  · rw [a3, b2] at hs; have hs : @Eq Nat (first + i) (sl) := hs; show @Eq Nat s sl; omega
  · rw [a3, b3] at hs; have hs : @Eq Nat (first + i) (first + j) := hs; show @Eq Nat s sl; omega
  · rw [a3, b2] at hs; have hs : @Eq Nat (first + i) (m + j) := hs; show @Eq Nat s sl; omega
  · rw [a2, b2] at hs; have hs : @Eq Nat (m + i) (sl) := hs; show @Eq Nat s sl; omega
  · rw [a2, b3] at hs; have hs : @Eq Nat (m + i) (first + j) := hs; show @Eq Nat s sl; omega
  · rw [a2, b2] at hs; have hs : @Eq Nat (m + i) (m + j) := hs; show @Eq Nat s sl; omega

/-- Analysis of the second script after the first one, and alone. -/
theorem continued {first : Slot} {ss1 ss1' ss2 : List (Stmt P)} {r : List (Str × SlotInfo)} {c2 : Ctx} (h1 : Opened src first g ss1 ss1' r c2)
    (ht : Stmt.tailsAll Stmt.bare ss2) (hb : ∀ y ∈ Stmt.definesAll src ss2, y ∉ g.map Prod.fst)
    (ha : Stmt.onlyNamesAll src (· ∉ Stmt.definesAll src ss1) ss2) (hx : Stmt.noContextAll ss2) :
    Seated (joinSlot first c2.next g.length) (· ∉ Stmt.definesAll src ss1) (c2.next + g.length) False (seats c2.next g) c2.binds (openCtx c2.next g)
      (Stmt.reslotAll (joinSlot first c2.next g.length)) (NeatAll (c2.next + g.length))
      (analyseAll src ss2 (openCtx c2.next g)) (analyseAll src ss2 c2) := by
  have hseats : seats first g = reslotBinds (joinSlot first c2.next g.length) (seats c2.next g) :=
    seats_reslot g c2.next first (fun i hi => joinSlot_mid i hi)
  have hS : Seating (joinSlot first c2.next g.length) (· ∉ Stmt.definesAll src ss1) (c2.next + g.length) (seats c2.next g) c2.binds := by
    refine ⟨fun y hy => ?_, fun _ x hx => (seats_mem g _ x hx).1⟩
    rw [h1.binds, lookupBind_app, hseats, lookupBind_reslot]
    have : lookupBind r y = none := by
      cases hl : lookupBind r y with
      | none => rfl
      | some s => exact absurd (h1.names _ (lookupBind_mem hl)) hy
    rw [this]
    rfl
  have hstep : ∀ n, c2.next + g.length ≤ n → joinSlot first c2.next g.length (n + 1) = joinSlot first c2.next g.length n + 1 := by
    intro n hn
    rw [joinSlot_high hn, joinSlot_high (Nat.le_succ_of_le hn)]
    exact Nat.succ_sub (Nat.le_trans (Nat.le_add_left _ _) hn)
  refine analyseAll_seated hS ss2 _ _ ?_ ha ht (.inr hx) (fun _ y hy _ => by rw [seats_names]; exact hb y hy)
  exact ⟨⟨[], by simp [openCtx], by simp [reslotBinds], by simp⟩, h1.regular, h1.control, h1.hypertag, nofun,
    by show c2.next = joinSlot _ _ _ (c2.next + g.length); rw [joinSlot_high (Nat.le_refl _)]; exact (Nat.add_sub_cancel _ _).symm,
    hstep, Nat.le_refl _, fun x hx => (seats_mem g _ x hx).2.2⟩

/-- The values of builtins of the second document are in the slots of those of the first one. -/
theorem fills_corr {first m : Nat} (hm : first + g.length ≤ m) (σ : StateId) (M : Machine P W)
    (hM : ∀ τ s, first ≤ s → (M.states τ).values s = none) :
    ∃ M1 M2 : Machine P W, (setSlots σ (fills first g) M : Res X Unit × Machine P W) = (.ok (), M1) ∧
      (setSlots σ (fills m g) M1 : Res X Unit × Machine P W) = (.ok (), M2) ∧ Machine.Corr (joinSlot first m g.length) M2 M1 := by
  obtain ⟨M1, a1, a2, a3, a4, a5⟩ := setSlots_fills (X := X) σ g first M
  obtain ⟨M2, b1, b2, b3, b4, b5⟩ := setSlots_fills (X := X) σ g m M1
  refine ⟨M1, M2, a1, b1, b2, b3, fun τ s => ?_⟩
  rcases joinSlot_cases first m g.length s with ⟨h1, h2⟩ | ⟨i, h1, h2, h3⟩ | ⟨i, h1, h2⟩
  · rw [h2, b4 τ s (.inl h1)]
  · rw [h3, h2, b5 τ i h1, a5 τ i h1]
    split
    · rfl
    · rw [a4 τ (m + i) (.inr (Nat.le_trans hm (Nat.le_add_right m i))), hM τ _ (Nat.le_add_right first i),
        hM τ _ (Nat.le_trans (Nat.le_trans (Nat.le_add_right first _) hm) (Nat.le_add_right m i))]
  · have e1 : first ≤ m := Nat.le_trans (Nat.le_add_right first _) hm
    rw [h2, h1, b4 τ _ (.inr (Nat.le_add_right _ i)), a4 τ (m + g.length + i) (.inr (by show first + g.length ≤ m + g.length + i; omega)),
      a4 τ (m + i) (.inr (by show first + g.length ≤ m + i; omega)), hM τ _ (by show first ≤ m + g.length + i; omega), hM τ _ (by show first ≤ m + i; omega)]

end
end Verif
