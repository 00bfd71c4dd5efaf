import Verif.Lemmas.Unused
import Verif.Props.Independent

/-! C114: definitions that are not used. -/

set_option linter.unusedSectionVars false

namespace Verif
open Py Spec

section
variable {P X W I : Type}

/-! ### C114 A hypertag that is not mentioned makes no difference -/

/-- The result of a document, without one of the exported symbols. -/
def hideSymbol (y : Str) : Res X (Ref × Dict Str (Val P)) → Res X (Ref × Dict Str (Val P))
  | .ok (root, symbols) => .ok (root, symbols.filter (fun x => x.1 ≠ y))
  | .raise e => .raise e
  | .timeout => .timeout

theorem tailsAll_both {K : Stmt P → Prop} : ∀ {a b : List (Stmt P)}, Stmt.tailsAll K (a ++ b) → Stmt.tailsAll K a ∧ Stmt.tailsAll K b
  | [], _, h => ⟨by simp only [Stmt.tailsAll], h⟩
  | s :: a, b, h => by
    simp only [List.cons_append, Stmt.tailsAll] at h ⊢
    exact ⟨⟨h.1, (tailsAll_both h.2).1⟩, (tailsAll_both h.2).2⟩

section
variable {src : Source P I} {g : Dict Str (Val P)} {ss1 ss2 : List (Stmt P)} {mk : Marks} {U : Uni}

theorem analyse_xblock (src : Source P I) (m : Str) (mo : Option Modifier) (d : Stmt P) (c : Ctx) :
    analyse src (.xblock m mo d) c = (analyse src d (leaveProlog d c) >>= fun r => Pure.pure (.xblock m mo r.1, r.2)) := by
  simp only [analyse]

/-- Translation of the statement makes the blank lines above it only, and writes to slot `s` only. -/
def Stmt.Silent (m : Str) (s : Slot) (d : Stmt P) : Prop :=
  ∀ {X W : Type} {f : Slot → Slot} {E E' : Env P X W} (_ : SimEnv f E E') (σ : StateId), (∀ t, f t ≠ s) →
    Sim f (translStatic m : Comp P X W (List Ref)) (do let r ← transl E' σ d; return nodesOf r)

/-- Analysis of the script with the statement, and without it. -/
structure LeftOut (first : Slot) (g : Dict Str (Val P)) (m : Str) (y : Str) (n j N : Nat)
    (a d c : List (Stmt P)) (o1 ob o2 : List (Str × SlotInfo)) : Prop where
  low : first + g.length ≤ n
  high : n ≤ N
  one : NeatAll 0 n a
  two : NeatAll 0 N c
  silent : ∃ s, d = [s] ∧ s.Silent m (n + j)
  bound : ∀ x ∈ ob, x.1 = y
  defs : ∀ x ∈ Stmt.defsAll d, x.2.below (n + j)
  outs1 : ∀ x ∈ o1, x.2.id < n
  outs2 : ∀ x ∈ o2, x.2.id < N

theorem left_out (hg : ∀ x ∈ g, validSymbol x.1 = true) {m : Str} {mo : Option Modifier} {id : DefId} {name : Str} {sl : Option Slot} {ba : Option AttrDef}
    {as : List AttrDef} {b : Stmt P} (ht : Stmt.tailsAll Stmt.bare (ss1 ++ .xblock m mo (.defn id name sl ba as b) :: ss2))
    (hu : Stmt.onlyNamesAll src (· ≠ '%' :: name) ss2) (hx : Stmt.noContextAll ss2) (first : Slot) {doc0 : Document P}
    (h0 : analyseDocument src first g (ss1 ++ [.xblock m mo (.defn id name sl ba as b)]) = .ok doc0) :
    (∃ e, analyseDocument src first g (ss1 ++ .xblock m mo (.defn id name sl ba as b) :: ss2) = .error e ∧
      analyseDocument src first g (ss1 ++ blankLines m ++ ss2) = .error e) ∨
    ∃ n j N a d c o1 ob o2, LeftOut first g m ('%' :: name) n j N a d c o1 ob o2 ∧
      analyseDocument src first g (ss1 ++ .xblock m mo (.defn id name sl ba as b) :: ss2) =
        .ok ⟨fills first g, a ++ d ++ Stmt.reslotAll (liftSlot n (j + 1)) c,
          (Dict.update [] (o1 ++ ob ++ reslotBinds (liftSlot n (j + 1)) o2)).map (fun p => (p.1, p.2.id))⟩ ∧
      analyseDocument src first g (ss1 ++ blankLines m ++ ss2) =
        .ok ⟨fills first g, a ++ blankLines m ++ c, (Dict.update [] (o1 ++ o2)).map (fun p => (p.1, p.2.id))⟩ := by
  obtain ⟨ht1, ht⟩ := tailsAll_both ht
  simp only [Stmt.tailsAll] at ht
  obtain ⟨td, ht2⟩ := ht
  simp only [Stmt.tails] at td
  rw [analyseDocument_open hg, analyseAll_append] at h0
  rw [analyseDocument_open hg, analyseDocument_open hg, List.append_assoc]
  cases e1 : analyseAll src ss1 (openCtx first g) with
  | error e => rw [e1] at h0; cases h0
  | ok r1 =>
    obtain ⟨a, c1⟩ := r1
    rw [e1] at h0
    have hgr := (analyseAll_grows src ss1 (openCtx first g)) _ e1
    have hS1 := seating_same (seats first g)
    have hopen : ∀ x ∈ (openCtx first g).binds, x.2.id < (openCtx first g).next := fun x hx => (seats_mem g first x hx).2.2
    obtain ⟨c1', k1, n1, q1⟩ := (analyseAll_seated (src := src) hS1 ss1 _ _ (Ctx.seat_same hopen) (Stmt.onlyNamesAll_any src ss1) ht1 (.inl trivial)
      (fun _ _ _ h => absurd h (Nat.lt_irrefl _))).result e1
    obtain ⟨o1, b1, _⟩ := hgr.binds
    have b1 : c1.binds = seats first g ++ o1 := b1
    cases e2 : analyse src (.defn id name sl ba as b) (leaveProlog (.defn id name sl ba as b) c1) with
    | error e =>
      have h0 : ((analyseAll src [.xblock m mo (.defn id name sl ba as b)] c1 >>= fun r => Pure.pure (a ++ r.1, r.2)) >>= _) = Except.ok doc0 := h0
      simp only [analyseAll, analyse_xblock, e2] at h0
      cases h0
    | ok r2 =>
      obtain ⟨s', c2⟩ := r2
      obtain ⟨s, ba', as', b', rfl, f1, f2, f3, f4, f5, f6, f7⟩ := defn_apart (c := leaveProlog (.defn id name sl ba as b) c1) k1.below td e2
      obtain ⟨j, rfl⟩ := Nat.exists_eq_add_of_le f2
      have hnext : c1.next ≤ c1.next + j := f2
      have hlow : ∀ x : Slot, x < c1.next → liftSlot c1.next (j + 1) x = x := fun x hx => if_pos hx
      have hS2 : Seating (liftSlot c1.next (j + 1)) (· ≠ '%' :: name) 0 c1.binds c2.binds := by
        refine ⟨fun y hy => ?_, fun h => absurd h (Nat.lt_irrefl _)⟩
        rw [f3, lookupBind_app]
        have : lookupBind [('%' :: name, (⟨c1.next + j, c1.regular⟩ : SlotInfo))] y = none := by
          simp only [lookupBind]
          simp [Ne.symm hy]
        have e : lookupBind [('%' :: name, (⟨c1.next + j, c1.regular⟩ : SlotInfo))] y = none := this
        show (lookupBind [('%' :: name, (⟨c1.next + j, c1.regular⟩ : SlotInfo))] y).or (lookupBind c1.binds y) = _
        rw [e]
        show lookupBind c1.binds y = _
        cases hl : lookupBind c1.binds y with
        | none => rfl
        | some i =>
          have := k1.below _ (lookupBind_mem hl)
          show some i = some (⟨liftSlot c1.next (j + 1) i.id, i.depth⟩ : SlotInfo)
          rw [hlow _ this]
      have hc2 : Ctx.Seat (liftSlot c1.next (j + 1)) (· ≠ '%' :: name) 0 False c1.binds c2.binds c1 c2 := by
        refine ⟨⟨[], by simp, by simp [reslotBinds], by simp⟩, f4, f5, f6, fun h => h.elim, ?_, fun n hn => ?_, Nat.zero_le _, k1.below⟩
        · rw [f1]; unfold liftSlot; rw [if_neg (Nat.lt_irrefl _)]; rfl
        · unfold liftSlot
          rw [if_neg (Nat.not_lt.2 hn), if_neg (Nat.not_lt.2 (Nat.le_succ_of_le hn)), Nat.add_right_comm]
      have A : analyseAll src (ss1 ++ .xblock m mo (.defn id name sl ba as b) :: ss2) (openCtx first g) =
          (analyseAll src ss2 c2 >>= fun r => Pure.pure (a ++ Stmt.xblock m mo (.defn id name (some (c1.next + j)) ba' as' b') :: r.1, r.2)) := by
        rw [analyseAll_append, e1]
        show (analyseAll src (_ :: ss2) c1 >>= fun r => Pure.pure (a ++ r.1, r.2)) = _
        simp only [analyseAll, analyse_xblock, e2]
        show ((analyseAll src ss2 c2 >>= fun r => Pure.pure (Stmt.xblock m mo (.defn id name (some (c1.next + j)) ba' as' b') :: r.1, r.2)) >>= _) = _
        cases analyseAll src ss2 c2 <;> rfl
      have B : analyseAll src (ss1 ++ (blankLines m ++ ss2)) (openCtx first g) =
          (analyseAll src ss2 c1 >>= fun r => Pure.pure (a ++ (blankLines m ++ r.1), r.2)) := by
        rw [analyseAll_append, e1]
        show (analyseAll src (blankLines m ++ ss2) c1 >>= fun r => Pure.pure (a ++ r.1, r.2)) = _
        rw [analyseAll_blank]
        cases analyseAll src ss2 c1 <;> rfl
      rw [A, B]
      rcases analyseAll_seated (src := src) hS2 ss2 _ _ hc2 hu ht2 (.inr hx) (fun _ _ _ h => absurd h (Nat.lt_irrefl _)) with
        ⟨e, g1, g2⟩ | ⟨c, c3, c3', g1, g2, g3, g4, g5⟩
      · rw [g1, g2]; exact .inl ⟨e, rfl, rfl⟩
      · rw [g1, g2]
        obtain ⟨o2, b3, b3', _⟩ := g3.binds
        refine .inr ⟨c1.next, j, c3.next, a, [.xblock m mo (.defn id name (some (c1.next + j)) ba' as' b')], c, o1,
          [('%' :: name, ⟨c1.next + j, c1.regular⟩)], o2,
          ⟨n1.1, g4.1, q1, g5, ⟨_, rfl, fun hE σ hs => defn_sim hE σ m mo id name _ _ _ _ hs⟩, by simp, ?_, fun x hx => ?_, fun x hx => ?_⟩, ?_, ?_⟩
        · intro x hx
          simp only [Stmt.defsAll, List.append_nil] at hx
          simp only [Stmt.defs] at hx
          exact f7 x (by simp only [Stmt.defs]; exact hx)
        · exact k1.below x (by rw [b1]; exact List.mem_append_right _ hx)
        · exact g3.below x (by rw [b3]; exact List.mem_append_right _ hx)
        · show Except.ok _ = Except.ok _
          congr 2
          · simp
          · unfold exportsOf
            have : c3'.binds.drop g.length = o1 ++ [('%' :: name, ⟨c1.next + j, c1.regular⟩)] ++ reslotBinds (liftSlot c1.next (j + 1)) o2 := by
              rw [b3', f3]
              show List.drop g.length (c1.binds ++ [('%' :: name, ⟨c1.next + j, c1.regular⟩)] ++ _) = _
              rw [b1, List.append_assoc, List.append_assoc, List.append_assoc, ← seats_length g first, List.drop_left]
            rw [this]
        · show Except.ok _ = Except.ok _
          congr 2
          · simp
          · unfold exportsOf
            rw [b3, b1, List.append_assoc, ← seats_length g first, List.drop_left]

/-- Exported symbols, other than the name of the definition. -/
theorem exports_left {n j N : Nat} {y : Str} {o1 ob o2 : List (Str × SlotInfo)} (hb : ∀ x ∈ ob, x.1 = y) (h1 : ∀ x ∈ o1, x.2.id < n) (h2 : ∀ x ∈ o2, x.2.id < N) :
    ((Dict.update [] (o1 ++ ob ++ reslotBinds (liftSlot n (j + 1)) o2)).map (fun p => (p.1, p.2.id))).filter (fun x => decide (x.1 ≠ y)) =
      (((Dict.update [] (o1 ++ o2)).map (fun p => (p.1, p.2.id))).filter (fun x => decide (x.1 ≠ y))).map (fun x => (x.1, aroundSlot n j N x.2)) := by
  have e1 : reslotBinds (aroundSlot n j N) o1 = o1 := map_fix (fun x hx => by
    show (x.1, (⟨aroundSlot n j N x.2.id, x.2.depth⟩ : SlotInfo)) = x
    rw [around_low (h1 x hx)])
  have e2 : reslotBinds (liftSlot n (j + 1)) o2 = reslotBinds (aroundSlot n j N) o2 := List.map_congr_left (fun x hx => by
    show (x.1, (⟨liftSlot n (j + 1) x.2.id, x.2.depth⟩ : SlotInfo)) = (x.1, ⟨aroundSlot n j N x.2.id, x.2.depth⟩)
    have : liftSlot n (j + 1) x.2.id = aroundSlot n j N x.2.id := by
      by_cases h : x.2.id < n
      · rw [around_low h]; exact if_pos h
      · rw [around_mid (Nat.not_lt.1 h) (h2 x hx)]; exact if_neg h
    rw [this])
  have f : ∀ l : List (Str × SlotInfo), (l.map (fun p => (p.1, p.2.id))).filter (fun x => decide (x.1 ≠ y)) =
      (l.filter (fun x => decide (x.1 ≠ y))).map (fun p => (p.1, p.2.id)) := fun l => by
    rw [List.filter_map]; rfl
  have k := fun l : List (Str × SlotInfo) => Dict.filter_update (fun k => decide (k ≠ y)) l []
  rw [f, f, k, k]
  have e3 : (o1 ++ ob ++ reslotBinds (liftSlot n (j + 1)) o2).filter (fun x => decide (x.1 ≠ y)) =
      reslotBinds (aroundSlot n j N) ((o1 ++ o2).filter (fun x => decide (x.1 ≠ y))) := by
    rw [e2, List.filter_append, List.filter_append, List.filter_append,
      (List.filter_eq_nil_iff (l := ob) (p := fun x => decide (x.1 ≠ y))).2 (fun x hx => by simp [hb x hx]), List.append_nil]
    unfold reslotBinds at e1 ⊢
    rw [List.map_append, List.filter_map]
    congr 1
    exact (congrArg (List.filter (fun x : Str × SlotInfo => decide (x.1 ≠ y))) e1).symm.trans (List.filter_map ..)
  rw [e3]
  rw [show (Dict.update (List.filter (fun x : Str × SlotInfo => decide (x.1 ≠ y)) []) (reslotBinds (aroundSlot n j N) _)) = reslotBinds (aroundSlot n j N) (Dict.update [] _) from update_reslot _ []]
  unfold reslotBinds SlotInfo.reslot
  rw [List.map_map, List.map_map]
  rfl

theorem hide_symbols {V : Type} (y : Str) (v : Slot → Option V) : ∀ l : List (Str × Slot),
    (l.filterMap (fun x => (v x.2).map (fun w => (x.1, w)))).filter (fun x => decide (x.1 ≠ y)) =
      (l.filter (fun x => decide (x.1 ≠ y))).filterMap (fun x => (v x.2).map (fun w => (x.1, w)))
  | [] => rfl
  | (k, s) :: l => by
    have ih := hide_symbols y v l
    simp only [List.filterMap_cons, List.filter_cons]
    cases hv : v s with
    | none =>
      simp only [Option.map_none]
      rw [ih]
      split
      · simp only [List.filterMap_cons, hv, Option.map_none]
      · rfl
    | some w =>
      simp only [Option.map_some, List.filter_cons]
      rw [ih]
      split
      · simp only [List.filterMap_cons, hv, Option.map_some]
      · rfl

theorem around_high {n j N s : Nat} (h : n ≤ s) : n ≤ aroundSlot n j N s := by
  have e' : aroundSlot n j N s = (if s < n then s else if s < N then s + (j + 1) else if s < N + j then s - (N - n) else s + 1 : Nat) := rfl
  rw [e', if_neg (Nat.not_lt.2 h)]
  show @LE.le Nat _ _ _
  split
  · omega
  · split <;> omega

/-- What is translated, in both cases. -/
theorem left_out_same {first n j N : Nat} {m y : Str} {a d c : List (Stmt P)} {o1 ob o2 : List (Str × SlotInfo)}
    (hL : LeftOut first g m y n j N a d c o1 ob o2) (ops : PyOps P X W) (Γ : DefId → DefInfo P)
    (hΓ : ∀ x ∈ Stmt.defsAll (a ++ d ++ Stmt.reslotAll (liftSlot n (j + 1)) c), Γ x.1 = x.2)
    (hother : ∀ i, i ∉ (Stmt.defsAll (a ++ d ++ Stmt.reslotAll (liftSlot n (j + 1)) c)).map Prod.fst → (Γ i).below first) :
    ∃ Γ' : DefId → DefInfo P, (∀ x ∈ Stmt.defsAll (a ++ blankLines m ++ c), Γ' x.1 = x.2) ∧
      (∀ i, i ∉ (Stmt.defsAll (a ++ d ++ Stmt.reslotAll (liftSlot n (j + 1)) c)).map Prod.fst → Γ' i = Γ i) ∧
      ∀ (k : Nat) (σ : StateId) (M : Machine P W), M.FreshFrom first →
        hideSymbol y (translDocument (envAt ops Γ' k) σ
          ⟨fills first g, a ++ blankLines m ++ c, (Dict.update [] (o1 ++ o2)).map (fun p => (p.1, p.2.id))⟩ M).1 =
        hideSymbol y (translDocument (envAt ops Γ k) σ ⟨fills first g, a ++ d ++ Stmt.reslotAll (liftSlot n (j + 1)) c,
          (Dict.update [] (o1 ++ ob ++ reslotBinds (liftSlot n (j + 1)) o2)).map (fun p => (p.1, p.2.id))⟩ M).1 ∧
        (translDocument (envAt ops Γ' k) σ
          ⟨fills first g, a ++ blankLines m ++ c, (Dict.update [] (o1 ++ o2)).map (fun p => (p.1, p.2.id))⟩ M).2.mem =
        (translDocument (envAt ops Γ k) σ ⟨fills first g, a ++ d ++ Stmt.reslotAll (liftSlot n (j + 1)) c,
          (Dict.update [] (o1 ++ ob ++ reslotBinds (liftSlot n (j + 1)) o2)).map (fun p => (p.1, p.2.id))⟩ M).2.mem := by
  have hn : first ≤ n := Nat.le_trans (Nat.le_add_right _ _) hL.low
  have hfix : ∀ t : Nat, t ≠ n + j → aroundSlot n j N (aroundBack n j N t) = t := fun t ht => around_back hL.high t ht
  have hback : ∀ s : Nat, s < N → aroundBack n j N (liftSlot n (j + 1) s) = s := fun s hs => by
    by_cases h : s < n
    · rw [show liftSlot n (j + 1) s = s from if_pos h]; exact back_low h
    · rw [show liftSlot n (j + 1) s = s + (j + 1) from if_neg h, ← around_mid (Nat.not_lt.1 h) hs]; exact back_around hL.high s
  have hlift : ∀ s : Nat, liftSlot n (j + 1) s ≠ n + j := fun s => by
    have e : liftSlot n (j + 1) s = (if s < n then s else s + (j + 1) : Nat) := rfl
    rw [e]
    show ¬ @Eq Nat _ _
    split <;> omega
  -- the slots of the rest of the script
  have hrest : Stmt.reslotAll (liftSlot n (j + 1)) c = Stmt.reslotAll (aroundSlot n j N) c := by
    have e := hL.two.fix (fun s => aroundBack n j N (liftSlot n (j + 1) s)) hback
    have e2 := Stmt.reslotAll_twice (aroundSlot n j N) (fun s => aroundBack n j N (liftSlot n (j + 1) s)) c
    rw [e] at e2
    rw [e2]
    congr 1
    funext s
    exact (hfix _ (hlift s)).symm
  have hone : Holds n (aroundSlot n j N) := fun s hs => around_low hs
  have hone' : Holds n (aroundBack n j N) := fun s hs => back_low hs
  have hdefs1 : ∀ h : Slot → Slot, Holds n h → ∀ x ∈ Stmt.defsAll a, x.2.reslot h = x.2 := by
    intro h hh x hx
    have := Stmt.defsAll_reslot h a
    rw [hL.one.fix _ hh] at this
    exact congrArg Prod.snd (fix_of_map this.symm x hx)
  refine ⟨fun i => (Γ i).reslot (aroundBack n j N), ?_, fun i hi => hother i hi _ (hone'.le hn), fun k σ M hM => ?_⟩
  · intro x hx
    have hx : x ∈ Stmt.defsAll (a ++ blankLines m ++ c) := hx
    rw [defsAll_both, defsAll_both, defs_blankLines, List.append_nil] at hx
    rcases List.mem_append.1 hx with hx | hx
    · have := hΓ x (by
        show x ∈ Stmt.defsAll (a ++ d ++ _)
        rw [defsAll_both, defsAll_both]
        exact List.mem_append_left _ (List.mem_append_left _ hx))
      show (Γ x.1).reslot _ = x.2
      rw [this]
      exact hdefs1 _ hone' x hx
    · have := hΓ (x.1, x.2.reslot (liftSlot n (j + 1))) (by
        show _ ∈ Stmt.defsAll (a ++ d ++ _)
        rw [defsAll_both, Stmt.defsAll_reslot]
        exact List.mem_append_right _ (List.mem_map.2 ⟨x, hx, rfl⟩))
      show (Γ x.1).reslot _ = x.2
      rw [show Γ x.1 = x.2.reslot (liftSlot n (j + 1)) from this, DefInfo.reslot_twice]
      have e := Stmt.defsAll_reslot (fun s => aroundBack n j N (liftSlot n (j + 1) s)) c
      rw [hL.two.fix _ hback] at e
      exact congrArg Prod.snd (fix_of_map e.symm x hx)
  have hround : ∀ i, (Γ i).writes (fun _ => True) ∧ Γ i = ((Γ i).reslot (aroundBack n j N)).reslot (aroundSlot n j N) := by
    intro i
    refine ⟨DefInfo.writes_any _, ?_⟩
    rw [DefInfo.reslot_twice]
    by_cases hi : i ∈ (Stmt.defsAll (a ++ d ++ Stmt.reslotAll (liftSlot n (j + 1)) c)).map Prod.fst
    · obtain ⟨x, hx, rfl⟩ := List.mem_map.1 hi
      rw [hΓ x hx]
      rw [defsAll_both, defsAll_both] at hx
      rcases List.mem_append.1 hx with hx | hx
      · rcases List.mem_append.1 hx with hx | hx
        · exact (hdefs1 _ (fun s hs => by show aroundSlot n j N (aroundBack n j N s) = s; rw [hone' s hs, hone s hs]) x hx).symm
        · exact (hL.defs x hx _ (fun s hs => hfix s (Nat.ne_of_lt hs))).symm
      · rw [Stmt.defsAll_reslot] at hx
        obtain ⟨y, hy, rfl⟩ := List.mem_map.1 hx
        show y.2.reslot _ = (y.2.reslot _).reslot _
        rw [DefInfo.reslot_twice]
        congr 1
        funext s
        exact (hfix _ (hlift s)).symm
    · exact (hother i hi _ (fun s hs => by
        have hs : s < n := Nat.lt_of_lt_of_le hs hn
        show aroundSlot n j N (aroundBack n j N s) = s
        rw [hone' s hs, hone s hs])).symm
  have own := around_own (j := j) hL.high
  have hE : SimEnv (aroundSlot n j N) (envAt ops (fun i => (Γ i).reslot (aroundBack n j N)) k) (envAt ops Γ k) :=
    envAt_sim ops (fun i => ⟨DefInfo.writes_mono (fun o _ => own o) (DefInfo.writes_any _), (hround i).2⟩) k
  let core (E : Env P X W) (ss : List (Stmt P)) : Comp P X W Ref := do
    setSlots σ (fills first g)
    let ns ← translAll E σ ss
    let root ← newNode .root ns (some ['\n']) .none .none .none
    let n ← readNode root
    writeNode root { n with indent := some [] }
    return root
  have hcore : ∀ (E : Env P X W) (ss : List (Stmt P)) (out : List (Str × Slot)), translDocument E σ ⟨fills first g, ss, out⟩ =
      (core E ss >>= fun root => readSymbols σ out >>= fun symbols => Pure.pure (root, symbols)) := fun E ss out => by
    unfold translDocument
    simp only [core, Comp.bind_assoc, Comp.pure_bind]
  have hs : Sim (aroundSlot n j N) (core (envAt ops (fun i => (Γ i).reslot (aroundBack n j N)) k) (a ++ blankLines m ++ c))
      (core (envAt ops Γ k) (a ++ d ++ Stmt.reslotAll (liftSlot n (j + 1)) c)) := by
    refine Sim.bind ?_ (fun _ => Sim.bind ?_ (fun ns => Sim.bind (newNode_sim hE _ _ _ _ _ _) (fun r => Sim.bind (Sim.readNode r) (fun x =>
      Sim.bind (Sim.writeNode r _) (fun _ => Sim.pure _)))))
    · have := setSlots_sim (X := X) (W := W) (f := aroundSlot n j N) σ (fills first g) (fun _ _ => own _)
      rw [map_fix (fun x hx => by rw [around_low (Nat.lt_of_lt_of_le (fills_slot _ _ x hx).2 hL.low)])] at this
      exact this
    · obtain ⟨d0, rfl, hd0⟩ := hL.silent
      rw [hrest, List.append_assoc, List.append_assoc, translAll_append, translAll_blank, translAll_append, List.singleton_append]
      have h1 := translAll_sim hE σ a (Stmt.writesAll_mono (fun o _ => own o) _ (Stmt.writesAll_any _))
      rw [hL.one.fix _ hone] at h1
      refine Sim.bind h1 (fun x => Sim.bind ?_ (fun _ => Sim.pure _))
      have h2 := Sim.bind (hd0 hE σ (around_ne hL.high))
        (fun x => Sim.bind (translAll_sim hE σ c (Stmt.writesAll_mono (fun o _ => own o) _ (Stmt.writesAll_any _))) (fun y => Sim.pure (x ++ y)))
      simp only [translAll]
      simp only [Comp.bind_assoc, Comp.pure_bind] at h2
      exact h2
  have hcorr : Machine.Corr (aroundSlot n j N) M M := by
    refine ⟨rfl, fun _ => rfl, fun τ s => ?_⟩
    by_cases h : s < n
    · rw [hone s h]
    · have e : n ≤ aroundSlot n j N s := around_high (Nat.not_lt.1 h)
      rw [hM τ s (Nat.le_trans hn (Nat.not_lt.1 h)), hM τ _ (Nat.le_trans hn e)]
  rw [hcore, hcore, Comp.bind_run, Comp.bind_run]
  obtain ⟨r1, r2⟩ := hs M M hcorr
  generalize core (envAt ops (fun i => (Γ i).reslot (aroundBack n j N)) k) (a ++ blankLines m ++ c) M = x at r1 r2 ⊢
  generalize core (envAt ops Γ k) (a ++ d ++ Stmt.reslotAll (liftSlot n (j + 1)) c) M = y at r1 r2 ⊢
  obtain ⟨r, M1⟩ := x
  obtain ⟨r', M2⟩ := y
  have r1 : r = r' := r1
  subst r1
  cases r with
  | raise e => exact ⟨rfl, r2.mem⟩
  | timeout => exact ⟨rfl, r2.mem⟩
  | ok root =>
    simp only [Comp.next, Comp.bind_run, readSymbols_run]
    refine ⟨?_, r2.mem⟩
    show Res.ok (root, _) = Res.ok (root, _)
    congr 2
    rw [hide_symbols, hide_symbols, exports_left hL.bound hL.outs1 hL.outs2, List.filterMap_map]
    congr 1
    funext x
    show _ = ((M2.states σ).values (aroundSlot n j N x.2)).map _
    rw [r2.val]

/-- A hypertag that is defined between blocks of a script, and that is not mentioned below. Without the definition -- only the blank lines above it
stay -- the same faults are found; when there is none, the same nodes are made, with the same contents, or the same exception is
raised, whatever python does, and the same symbols are exported with the same values, except for the hypertag itself. Other hypertags of the script are
the same with other slots; hypertags of other documents, which were loaded before and have lower slots, are as they are. -/
theorem C114_document (hg : ∀ x ∈ g, validSymbol x.1 = true) {m : Str} {mo : Option Modifier} {id : DefId} {name : Str} {sl : Option Slot} {ba : Option AttrDef}
    {as : List AttrDef} {b : Stmt P} (hm : Stmt.MadeDocument mk U (ss1 ++ .xblock m mo (.defn id name sl ba as b) :: ss2))
    (hu : Stmt.onlyNamesAll src (· ≠ '%' :: name) ss2) (hx : Stmt.noContextAll ss2) (first : Slot) {doc0 : Document P}
    (h0 : analyseDocument src first g (ss1 ++ [.xblock m mo (.defn id name sl ba as b)]) = .ok doc0) :
    (∀ e, analyseDocument src first g (ss1 ++ .xblock m mo (.defn id name sl ba as b) :: ss2) = .error e ↔
      analyseDocument src first g (ss1 ++ blankLines m ++ ss2) = .error e) ∧
    ∀ doc, analyseDocument src first g (ss1 ++ .xblock m mo (.defn id name sl ba as b) :: ss2) = .ok doc →
      ∃ doc', analyseDocument src first g (ss1 ++ blankLines m ++ ss2) = .ok doc' ∧
        ∀ (ops : PyOps P X W) (Γ : DefId → DefInfo P), Enrolled Γ doc → (∀ i, i ∉ (Stmt.defsAll doc.children).map Prod.fst → (Γ i).below first) →
          ∃ Γ' : DefId → DefInfo P, Enrolled Γ' doc' ∧ (∀ i, i ∉ (Stmt.defsAll doc.children).map Prod.fst → Γ' i = Γ i) ∧
            ∀ (k : Nat) (σ : StateId) (M : Machine P W), M.FreshFrom first →
              hideSymbol ('%' :: name) (translDocument (envAt ops Γ' k) σ doc' M).1 = hideSymbol ('%' :: name) (translDocument (envAt ops Γ k) σ doc M).1 ∧
              (translDocument (envAt ops Γ' k) σ doc' M).2.mem = (translDocument (envAt ops Γ k) σ doc M).2.mem := by
  have ht : Stmt.tailsAll Stmt.bare (ss1 ++ .xblock m mo (.defn id name sl ba as b) :: ss2) := Stmt.MadeAll.tailsOf (fun _ h => h.bare) hm.2
  rcases left_out hg ht hu hx first h0 with ⟨e, k1, k2⟩ | ⟨n, j, N, a, d, c, o1, ob, o2, hL, k1, k2⟩
  · rw [k1, k2]
    exact ⟨fun _ => Iff.rfl, fun doc h => by cases h⟩
  rw [k1, k2]
  refine ⟨fun e => by simp, fun doc h => ?_⟩
  cases h
  exact ⟨_, rfl, fun ops Γ hΓ hother => left_out_same hL ops Γ hΓ hother⟩

end
end

/-! ### Examples -/

namespace UnusedEx
open MentionsEx IndependentEx

-- a definition with an attribute, a local variable and a definition inside, which is not used; another one which is used, and calls it by no means
def used : Str := s!!"| a\n\n%K t\n    $w = t\n    %L | deep\n    p | <{w}>\n%H t\n    p | {t}-{x}\n$v = x\nfor i in s:\n    $u = i\n    H u\n| $v"
def without : Str := s!!"| a\n\n%H t\n    p | {t}-{x}\n$v = x\nfor i in s:\n    $u = i\n    H u\n| $v"

example : (text used).isSome = true ∧ text used = text without := by decide +kernel

/-- `%K t` with `{t}` below. -/
def defn : Stmt Toy.Obj := .xblock (s!!"\n") none (.defn 7 (s!!"K") none none [⟨s!!"t", none, none⟩] (.body [.xblock [] none (.exprBlock (.varUse (s!!"t") none))]))

theorem made_all : Stmt.MadeDocument defaultMarks asciiUni (before ++ defn :: parsed) := by
  have hx : Ident (s!!"x") := ⟨'x', [], rfl, by decide +kernel, by simp⟩
  have hy : Ident (s!!"y") := ⟨'y', [], rfl, by decide +kernel, by simp⟩
  have hz : Ident (s!!"z") := ⟨'z', [], rfl, by decide +kernel, by simp⟩
  have ht : Ident (s!!"t") := ⟨'t', [], rfl, by decide +kernel, by simp⟩
  have hK : Ident (s!!"K") := ⟨'K', [], rfl, by decide +kernel, by simp⟩
  refine ⟨⟨before ++ defn :: parsed, [], (List.append_nil _).symm, WellNested.one (by rfl) (WellNested.one (by rfl) (WellNested.one (by rfl)
    (WellNested.one (by rfl) .nil))), by simp, by simp⟩, ?_⟩
  simp [before, defn, parsed, Stmt.MadeAll, Stmt.Made, Stmt.role, Newlines, Target.Made, Target.MadeAll, Expr.Made, AttrDef.Made, hx, hy, hz, ht, hK]
  exact ⟨by simp [Expr.MadeOpt], .inr rfl, [], _, rfl, by simp, by simp, WellNested.one (by rfl) .nil⟩

-- the theorem applies: without the definition there is no fault, and slots are numbered otherwise
example : ∃ doc', analyseDocument source 0 builtins (before ++ blankLines (s!!"\n") ++ parsed) = .ok doc' ∧ doc'.slotsOut = [(s!!"$z", 3), (s!!"$y", 4)] := by
  obtain ⟨_, h⟩ := C114_document (X := Str) (W := Unit) (src := source) (g := builtins) (by decide +kernel) made_all
    (by simp only [parsed, Stmt.onlyNamesAll, Stmt.onlyNames, Target.onlyNames, Target.onlyNamesAll, Expr.uses]; decide +kernel)
    (by simp [parsed, Stmt.noContextAll, Stmt.noContext]) 0 rfl
  obtain ⟨doc', a, _⟩ := h _ rfl
  exact ⟨doc', a, by cases a; rfl⟩

example : (analyseDocument source 0 builtins (before ++ defn :: parsed)).toOption.map Document.slotsOut =
    some [(s!!"$z", 3), (s!!"%K", 5), (s!!"$y", 6)] := by decide +kernel

/-- A faulty definition is a fault, if used or not. -/
example : text (s!!"%K\n    | $w\n| a") = none ∧ (text (s!!"| a")).isSome = true := by decide +kernel

end UnusedEx
end Verif
