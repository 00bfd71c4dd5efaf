import Verif.Lemmas.Independent
import Verif.Lemmas.ReslotComp
import Verif.Lemmas.Comments

/-! A definition that is left out. -/

set_option linter.unusedSectionVars false

namespace Verif
open Py Spec

section
variable {P X W I : Type}

/-! ### Slots -/

/-- Slots of a script without a definition, in the script with it: slots of the definition are `n ... n + j - 1`, that of its name is `n + j`. Slots from
`N` on are of no symbol of the script; some of them stand for the slots of the definition. -/
def aroundSlot (n j N : Slot) (s : Slot) : Slot :=
  if s < n then s else if s < N then s + (j + 1) else if s < N + j then s - (N - n) else s + 1

/-- The other direction. -/
def aroundBack (n j N : Slot) (t : Slot) : Slot :=
  if t < n then t else if t < n + j then t + (N - n) else if t < N + (j + 1) then t - (j + 1) else t - 1

section
variable {n j N : Nat}

theorem around_back (hn : n ≤ N) (t : Nat) (ht : t ≠ n + j) : aroundSlot n j N (aroundBack n j N t) = t := by
  show @Eq Nat _ _
  have e : aroundBack n j N t = (if t < n then t else if t < n + j then t + (N - n) else if t < N + (j + 1) then t - (j + 1) else t - 1 : Nat) := rfl
  have e' : ∀ s : Nat, aroundSlot n j N s = (if s < n then s else if s < N then s + (j + 1) else if s < N + j then s - (N - n) else s + 1 : Nat) := fun _ => rfl
  rw [e, e']
  split
  · rfl
  · split
    · rw [if_neg (by omega), if_neg (by omega), if_pos (by omega)]; omega
    · split
      · rw [if_neg (by omega), if_pos (by omega)]; omega
      · rw [if_neg (by omega), if_neg (by omega), if_neg (by omega)]; omega

theorem back_around (hn : n ≤ N) (s : Nat) : aroundBack n j N (aroundSlot n j N s) = s := by
  show @Eq Nat _ _
  have e : ∀ t : Nat, aroundBack n j N t = (if t < n then t else if t < n + j then t + (N - n) else if t < N + (j + 1) then t - (j + 1) else t - 1 : Nat) := fun _ => rfl
  have e' : aroundSlot n j N s = (if s < n then s else if s < N then s + (j + 1) else if s < N + j then s - (N - n) else s + 1 : Nat) := rfl
  rw [e', e]
  split
  · rfl
  · split
    · rw [if_neg (by omega), if_neg (by omega), if_pos (by omega)]; omega
    · split
      · rw [if_neg (by omega), if_pos (by omega)]; omega
      · rw [if_neg (by omega), if_neg (by omega), if_neg (by omega)]; omega

theorem around_ne (hn : n ≤ N) (s : Nat) : aroundSlot n j N s ≠ n + j := by
  show ¬ @Eq Nat _ _
  have e' : aroundSlot n j N s = (if s < n then s else if s < N then s + (j + 1) else if s < N + j then s - (N - n) else s + 1 : Nat) := rfl
  rw [e']
  split
  · omega
  · split
    · omega
    · split <;> omega

theorem around_low {s : Nat} (h : s < n) : aroundSlot n j N s = s := if_pos h
theorem around_mid {s : Nat} (h : n ≤ s) (h' : s < N) : aroundSlot n j N s = s + (j + 1) := by
  unfold aroundSlot; rw [if_neg (Nat.not_lt.2 h), if_pos h']
theorem back_low {s : Nat} (h : s < n) : aroundBack n j N s = s := if_pos h

theorem around_own (hn : n ≤ N) (o : Option Slot) : Own (aroundSlot n j N) o := fun sl _ s h => by
  have := congrArg (aroundBack n j N) h
  rwa [back_around hn, back_around hn] at this

end

/-! ### Analysis of a definition -/

variable {src : Source P I}

/-- Contexts that are the same. -/
theorem Ctx.seat_same {c : Ctx} (hb : ∀ x ∈ c.binds, x.2.id < c.next) : Ctx.Seat id (fun _ => True) 0 True c.binds c.binds c c :=
  ⟨⟨[], by simp, by simp [reslotBinds], by simp⟩, rfl, rfl, rfl, fun _ => rfl, rfl, fun _ _ => rfl, Nat.zero_le _, hb⟩

theorem seating_same (l : List (Str × SlotInfo)) : Seating id (fun _ => True) 0 l l :=
  ⟨fun _ _ => (reslot_id _).symm, fun h => absurd h (Nat.lt_irrefl _)⟩

theorem Mapped.result {α β : Type} {φ : α → β} {Q : α → Prop} {r : Except (AErr I) α} {r' : Except (AErr I) β} (h : Mapped φ Q r r') {a : α} (e : r = .ok a) : Q a := by
  rcases h with ⟨_, h, _⟩ | ⟨a', h, _, hq⟩
  · rw [e] at h; cases h
  · rw [e] at h; cases h; exact hq

theorem Seated.result {α β : Type} {f : Slot → Slot} {p : Str → Prop} {n0 : Slot} {E : Prop} {g g' : List (Str × SlotInfo)} {z : Ctx} {φ : α → β}
    {Q : Slot → α → Prop} {r : Except (AErr I) (α × Ctx)} {r' : Except (AErr I) (β × Ctx)} (h : Seated f p n0 E g g' z φ Q r r') {a : α} {c : Ctx}
    (e : r = .ok (a, c)) : ∃ c', Ctx.Seat f p n0 E g g' c c' ∧ z.Onward c ∧ Q c.next a := by
  rcases h with ⟨_, h, _⟩ | ⟨a', c1, c1', h, _, h1, h2, h3⟩
  · rw [e] at h; cases h
  · rw [e] at h; cases h; exact ⟨c1', h1, h2, h3⟩

/-- The slot of the name of a definition is the last one, and it is not used in the definition. -/
theorem defn_apart {c c' : Ctx} {id : DefId} {name : Str} {sl : Option Slot} {ba : Option AttrDef} {as : List AttrDef} {b s' : Stmt P}
    (hb : ∀ x ∈ c.binds, x.2.id < c.next) (t : b.tails Stmt.bare) (h : analyse src (.defn id name sl ba as b) c = .ok (s', c')) :
    ∃ s ba' as' b', s' = .defn id name (some s) ba' as' b' ∧ c'.next = s + 1 ∧ c.next ≤ s ∧ c'.binds = c.binds ++ [('%' :: name, ⟨s, c.regular⟩)] ∧
      c'.regular = c.regular ∧ c'.control = c.control ∧ c'.hypertag = c.hypertag ∧ ∀ d ∈ s'.defs, d.2.below s := by
  have hgr := (analyse_grows src (.defn id name sl ba as b) c) _ h
  simp only [analyse] at h
  split at h
  · cases h
  have hS := seating_same c.binds
  have hc1 := inner_seat2 hS (Ctx.seat_same hb)
  obtain ⟨ba1, e1, h⟩ := Except.bind_eq_ok.1 h
  obtain ⟨as1, e2, h⟩ := Except.bind_eq_ok.1 h
  obtain ⟨⟨ba2, c2⟩, e3, h⟩ := Except.bind_eq_ok.1 h
  obtain ⟨⟨as2, c3⟩, e4, h⟩ := Except.bind_eq_ok.1 h
  obtain ⟨⟨b', c4⟩, e5, h⟩ := Except.bind_eq_ok.1 h
  obtain ⟨⟨s, c5⟩, e6, h⟩ := Except.bind_eq_ok.1 h
  cases h
  have hba := (analyseDefaults_maps (f := _root_.id) (fun y hy => hc1.lookup hS hy) hc1.below ba.toList (fun a _ => ⟨trivial, Expr.usesOpt_any _⟩)).result e1
  have has := (analyseDefaults_maps (f := _root_.id) (fun y hy => hc1.lookup hS hy) hc1.below as (fun a _ => ⟨trivial, Expr.usesOpt_any _⟩)).result e2
  obtain ⟨c2', k2, n2, hba2⟩ := (declareAttrs_seated hS ba1 hba.1 _ _ hc1 hba.2).result e3
  obtain ⟨c3', k3, n3, has2⟩ := (declareAttrs_seated hS as1 has.1 _ _ k2 (fun h hh => has.2 h (hh.le n2.1))).result e4
  obtain ⟨c4', k4, n4, hb4⟩ := (analyse_seated (src := src) hS b _ _ k3 (Stmt.onlyNames_any src b) t (.inl trivial)
    (fun _ _ _ h => absurd h (Nat.lt_irrefl _))).result e5
  obtain ⟨r, hr, _, _⟩ := k4.binds
  have hl : (c.leave c4).binds = c.binds := by
    show c4.binds.take c.binds.length = c.binds
    rw [hr, List.take_left]
  unfold newSlot at e6
  split at e6
  · cases e6
    refine ⟨c4.next, _, _, _, rfl, rfl, Nat.le_trans n2.1 (Nat.le_trans n3.1 n4.1), ?_, hgr.regular, hgr.control, hgr.hypertag, ?_⟩
    · show (c.leave c4).binds ++ _ = _
      rw [hl]; rfl
    · intro d hd h hh
      simp only [Stmt.defs] at hd
      rcases List.mem_cons.1 hd with rfl | hd
      · show DefInfo.reslot h (DefInfo.ofDefn _ _ _) = _
        unfold DefInfo.reslot DefInfo.ofDefn
        simp only
        rw [hb4.fix h hh, has2.2 h (Holds.le hh n4.1), ← List.head?_map, hba2.2 h (Holds.le hh (Nat.le_trans n3.1 n4.1))]
      · have := Stmt.defs_reslot h b'
        rw [hb4.fix h hh] at this
        exact congrArg Prod.snd (fix_of_map this.symm d hd)
  · cases e6

/-! ### Exports -/

theorem Dict.filter_set {V : Type} (q : Str → Bool) (k : Str) (v : V) : ∀ d : Dict Str V,
    (Dict.set d k v).filter (fun x => q x.1) = if q k then Dict.set (d.filter (fun x => q x.1)) k v else d.filter (fun x => q x.1)
  | [] => by
    simp only [Dict.set, List.filter_cons, List.filter_nil]
  | (k', v') :: d => by
    have ih := Dict.filter_set q k v d
    simp only [Dict.set]
    split
    · rename_i e
      subst e
      simp only [List.filter_cons]
      split
      · simp only [Dict.set, if_pos]
      · rfl
    · rename_i e
      simp only [List.filter_cons]
      split
      · rw [ih]
        split
        · simp only [Dict.set, if_neg e]
        · rfl
      · exact ih

theorem Dict.filter_update {V : Type} (q : Str → Bool) : ∀ (l : List (Str × V)) (d : Dict Str V),
    (Dict.update d l).filter (fun x => q x.1) = Dict.update (d.filter (fun x => q x.1)) (l.filter (fun x => q x.1))
  | [], d => rfl
  | (k, v) :: l, d => by
    simp only [Dict.update, List.filter_cons]
    rw [Dict.filter_update q l, Dict.filter_set]
    split
    · simp only [Dict.update]
    · rfl

/-- The exported symbols that have a value. -/
theorem readSymbols_run (σ : StateId) (M : Machine P W) : ∀ l : List (Str × Slot),
    (readSymbols σ l M : Res X (Dict Str (Val P)) × Machine P W) = (.ok (l.filterMap (fun x => ((M.states σ).values x.2).map (fun v => (x.1, v)))), M)
  | [] => rfl
  | (sym, sl) :: l => by
    have ih := readSymbols_run σ M l
    simp only [readSymbols, getSlot, Comp.bind_run, Comp.next, ih, List.filterMap_cons]
    cases (M.states σ).values sl <;> rfl

/-! ### Translation of a definition -/

/-- It produces blank lines only; no other part of the script sees its slot. -/
theorem defn_sim {f : Slot → Slot} {E E' : Env P X W} (hE : SimEnv f E E') (σ : StateId) (m : Str) (mo : Option Modifier) (id : DefId) (name : Str)
    (s : Slot) (ba : Option AttrDef) (as : List AttrDef) (b : Stmt P) (hs : ∀ t, f t ≠ s) :
    Sim f (translStatic m : Comp P X W (List Ref)) (do let r ← transl E' σ (.xblock m mo (.defn id name (some s) ba as b)); return nodesOf r) := by
  have e : (do let r ← transl E' σ (.xblock m mo (.defn id name (some s) ba as b)); return nodesOf r : Comp P X W (List Ref)) =
      translStatic m >>= fun a => setSlot σ s (.hyper (.defn id)) >>= fun _ => Pure.pure a := by
    simp only [transl, Comp.bind_assoc, Comp.pure_bind, finishBlock]
    rfl
  rw [e]
  have h := Sim.bind (translStatic_sim hE m)
    (g := fun a => Pure.pure a) (g' := fun a => setSlot σ s (.hyper (.defn id)) >>= fun _ => Pure.pure a) (fun a M M' hM => by
      refine ⟨rfl, hM.mem, fun τ => ?_, fun τ t => ?_⟩
      · show (M.states τ).indentation = ((M'.updState σ (fun s' => { s' with values := fun t => if t = s then some (.hyper (.defn id)) else s'.values t })).states τ).indentation
        unfold Machine.updState
        simp only
        split
        · exact hM.ind τ
        · exact hM.ind τ
      · show (M.states τ).values t = ((M'.updState σ (fun s' => { s' with values := fun t => if t = s then some (.hyper (.defn id)) else s'.values t })).states τ).values (f t)
        unfold Machine.updState
        simp only
        split
        · simp only [if_neg (hs t)]; exact hM.val τ t
        · exact hM.val τ t)
  rwa [Comp.bind_pure] at h

end
end Verif
