import Verif.Spec.Constant
import Verif.Props.Unused
import Verif.Lemmas.PyModule
import Verif.Lemmas.Made

/-! C125: variables that are not used. -/

set_option linter.unusedSectionVars false

namespace Verif
open Py Spec

section
variable {P X W I : Type}

/-! ### C125 A variable that is not mentioned makes no difference -/

theorem analyse_statics (b : List (Str × SlotInfo)) : ∀ parts : List Str,
    (analyseExprs b (parts.map .static) : Except (AErr I) _) = .ok (parts.map .static)
  | [] => by simp only [List.map_nil, analyseExprs]; rfl
  | p :: ps => by
    simp only [List.map_cons, analyseExprs, analyseExpr, analyse_statics b ps]
    rfl

/-- Analysis does not change a constant. -/
theorem Spec.Constant.analysed {e : Expr} (h : Constant e) (b : List (Str × SlotInfo)) : (analyseExpr b e : Except (AErr I) Expr) = .ok e := by
  cases h <;> simp only [analyseExpr, analyse_statics] <;> rfl

theorem eval_statics (E : Env P X W) (σ : StateId) : ∀ parts : List Str,
    (evalStrs E σ (parts.map .static) : Comp P X W Str) = Pure.pure parts.flatten
  | [] => by simp only [List.map_nil, evalStrs, List.flatten_nil]
  | p :: ps => by
    simp only [List.map_cons, evalStrs, eval, Comp.pure_bind, eval_statics E σ ps, List.flatten_cons]
    rfl

/-- Evaluation of a constant gives a value, and does nothing else. -/
theorem Spec.Constant.value {e : Expr} (h : Constant e) (E : Env P X W) (σ : StateId) :
    ∃ v, (eval E σ e : Comp P X W (Val P)) = Pure.pure v := by
  cases h <;> simp only [eval, eval_statics, Comp.pure_bind]
  all_goals exact ⟨_, rfl⟩

/-- Assignment of a constant to a slot that no other part of the script sees. -/
theorem assign_silent (m : Str) (mo : Option Modifier) (name : Str) (s : Slot) {e : Expr} (he : Constant e) :
    (Stmt.xblock m mo (.assign (.many [.var name false none (some s)]) none e) : Stmt P).Silent m s := by
  intro X W f E E' hE σ hs
  obtain ⟨v, hv⟩ := he.value E' σ
  have e : (do let r ← transl E' σ (.xblock m mo (.assign (.many [.var name false none (some s)]) none e)); return nodesOf r : Comp P X W (List Ref)) =
      translStatic m >>= fun a => setSlot σ s v >>= fun _ => Pure.pure a := by
    simp only [transl, hv, inplace, assignTarget, Comp.bind_assoc, Comp.pure_bind, finishBlock]
    rfl
  rw [e]
  have h := Sim.bind (translStatic_sim hE m)
    (g := fun a => Pure.pure a) (g' := fun a => setSlot σ s v >>= fun _ => Pure.pure a) (fun a M M' hM => by
      refine ⟨rfl, hM.mem, fun τ => ?_, fun τ t => ?_⟩
      · show (M.states τ).indentation = ((M'.updState σ (fun s' => { s' with values := fun t => if t = s then some v else s'.values t })).states τ).indentation
        unfold Machine.updState
        simp only
        split
        · exact hM.ind τ
        · exact hM.ind τ
      · show (M.states τ).values t = ((M'.updState σ (fun s' => { s' with values := fun t => if t = s then some v else s'.values t })).states τ).values (f t)
        unfold Machine.updState
        simp only
        split
        · simp only [if_neg (hs t)]; exact hM.val τ t
        · exact hM.val τ t)
  rwa [Comp.bind_pure] at h

section
variable {src : Source P I} {g : Dict Str (Val P)} {ss1 ss2 : List (Stmt P)} {mk : Marks} {U : Uni}

theorem lookupBind_none {l : List (Str × SlotInfo)} {y : Str} (h : y ∉ l.map Prod.fst) : lookupBind l y = none := by
  cases e : lookupBind l y with
  | none => rfl
  | some i => exact absurd (List.mem_map.2 ⟨_, lookupBind_mem e, rfl⟩) h

theorem keys_update_all {K V : Type} [DecidableEq K] {k : K} : ∀ (l : List (K × V)) (d : Dict K V),
    k ∈ l.map Prod.fst ∨ k ∈ d.map Prod.fst → k ∈ (Dict.update d l).map Prod.fst
  | [], _, h => by simpa [Dict.update] using h
  | (k', v) :: l, d, h => by
    rw [Dict.update]
    apply keys_update_all l
    rcases h with h | h
    · rcases List.mem_cons.1 h with h | h
      · right
        have h : k = k' := h
        have : (Dict.set d k' v).get? k' = some v := by rw [Dict.get?_set, if_pos rfl]
        exact List.mem_map.2 ⟨(k', v), mem_of_get? this, h.symm⟩
      · exact .inl h
    · right
      obtain ⟨⟨a, b⟩, hq, e⟩ := List.mem_map.1 h
      have e : a = k := e
      by_cases hk : k' = k
      · subst hk
        have : (Dict.set d k' v).get? k' = some v := by rw [Dict.get?_set, if_pos rfl]
        exact List.mem_map.2 ⟨(k', v), mem_of_get? this, rfl⟩
      · rcases hd : d.get? k with _ | w
        · exfalso
          rw [Dict.get?_eq_none_iff] at hd
          exact hd h
        · have : (Dict.set d k' v).get? k = some w := by rw [Dict.get?_set, if_neg hk, hd]
          exact List.mem_map.2 ⟨(k, w), mem_of_get? this, rfl⟩

/-- A new name is declared in the next slot. -/
theorem declare_ok {c c' : Ctx} {y : Str} {w : SlotInfo} (hn : lookupBind c.binds y = none) (h : (writeSlot c y : Except (AErr I) _) = .ok (w, c')) :
    w = ⟨c.next, c.regular⟩ ∧ c'.binds = c.binds ++ [(y, ⟨c.next, c.regular⟩), (y, ⟨c.next, c.regular⟩)] ∧ c'.next = c.next + 1 ∧
      c'.regular = c.regular ∧ c'.control = c.control ∧ c'.hypertag = c.hypertag := by
  unfold writeSlot Ctx.get at h
  rw [hn] at h
  simp only [declare, newSlot] at h
  split at h
  · cases h
    exact ⟨rfl, by simp [Ctx.push], rfl, rfl, rfl, rfl⟩
  · cases h

theorem var_left_out (hg : ∀ x ∈ g, validSymbol x.1 = true) {m : Str} {mo : Option Modifier} {name : Str} {e : Expr} (he : Constant e)
    (ht : Stmt.tailsAll Stmt.bare (ss1 ++ .xblock m mo (assignTo name e) :: ss2))
    (hu : Stmt.onlyNamesAll src (· ≠ '$' :: name) ss2) (hx : Stmt.noContextAll ss2) (first : Slot) {doc0 : Document P}
    (h0 : analyseDocument src first g ss1 = .ok doc0) (hnew : '$' :: name ∉ doc0.slotsOut.map Prod.fst) (hglob : '$' :: name ∉ g.map Prod.fst)
    (hid : validSymbol ('$' :: name) = true) :
    (∃ e', analyseDocument src first g (ss1 ++ .xblock m mo (assignTo name e) :: ss2) = .error e' ∧
      analyseDocument src first g (ss1 ++ blankLines m ++ ss2) = .error e') ∨
    ∃ n j N a d c o1 ob o2, LeftOut first g m ('$' :: name) n j N a d c o1 ob o2 ∧
      analyseDocument src first g (ss1 ++ .xblock m mo (assignTo name e) :: ss2) =
        .ok ⟨fills first g, a ++ d ++ Stmt.reslotAll (liftSlot n (j + 1)) c,
          (Dict.update [] (o1 ++ ob ++ reslotBinds (liftSlot n (j + 1)) o2)).map (fun p => (p.1, p.2.id))⟩ ∧
      analyseDocument src first g (ss1 ++ blankLines m ++ ss2) =
        .ok ⟨fills first g, a ++ blankLines m ++ c, (Dict.update [] (o1 ++ o2)).map (fun p => (p.1, p.2.id))⟩ := by
  obtain ⟨ht1, ht⟩ := tailsAll_both ht
  simp only [Stmt.tailsAll] at ht
  obtain ⟨td, ht2⟩ := ht
  rw [analyseDocument_open hg] at h0
  rw [analyseDocument_open hg, analyseDocument_open hg, List.append_assoc]
  cases e1 : analyseAll src ss1 (openCtx first g) with
  | error e => rw [e1] at h0; cases h0
  | ok r1 =>
    obtain ⟨a, c1⟩ := r1
    rw [e1] at h0
    cases h0
    have hgr := (analyseAll_grows src ss1 (openCtx first g)) _ e1
    have hS1 := seating_same (seats first g)
    have hopen : ∀ x ∈ (openCtx first g).binds, x.2.id < (openCtx first g).next := fun x hx => (seats_mem g first x hx).2.2
    obtain ⟨c1', k1, n1, q1⟩ := (analyseAll_seated (src := src) hS1 ss1 _ _ (Ctx.seat_same hopen) (Stmt.onlyNamesAll_any src ss1) ht1 (.inl trivial)
      (fun _ _ _ h => absurd h (Nat.lt_irrefl _))).result e1
    obtain ⟨o1, b1, _⟩ := hgr.binds
    have b1 : c1.binds = seats first g ++ o1 := b1
    have hnone : lookupBind c1.binds ('$' :: name) = none := by
      apply lookupBind_none
      rw [b1, List.map_append]
      intro hm
      rcases List.mem_append.1 hm with hm | hm
      · rw [seats_names] at hm
        exact hglob hm
      · apply hnew
        show _ ∈ List.map Prod.fst (exportsOf g.length c1)
        unfold exportsOf
        rw [b1, ← seats_length g first, List.drop_left, List.map_map]
        exact keys_update_all o1 [] (.inl hm)
    have hlp : leaveProlog (assignTo name e : Stmt P) c1 = { c1 with prolog := false } := rfl
    obtain ⟨w, c2, e2⟩ : ∃ w c2, (writeSlot (leaveProlog (assignTo name e : Stmt P) c1) ('$' :: name) : Except (AErr I) _) = .ok (w, c2) := by
      unfold writeSlot Ctx.get
      rw [hlp]
      show ∃ w c2, (match lookupBind c1.binds ('$' :: name) with | some s => _ | none => _ : Except (AErr I) (SlotInfo × Ctx)) = _
      rw [hnone]
      simp only [declare, newSlot, hid]
      exact ⟨_, _, rfl⟩
    obtain ⟨rfl, f3, f1, f4, f5, f6⟩ := declare_ok (by rw [hlp]; exact hnone) e2
    have e3 : analyse src (assignTo name e) (leaveProlog (assignTo name e : Stmt P) c1) =
        .ok (.assign (.many [.var name false none (some c1.next)]) none e, c2) := by
      show analyse src (.assign _ none e) _ = _
      simp only [analyse, he.analysed, analyseTarget, analyseTargets, readSlot, Bool.false_eq_true, if_false]
      show ((((writeSlot (leaveProlog (assignTo name e : Stmt P) c1) ('$' :: name) >>= _) >>= _) >>= _) >>= _) = _
      rw [e2]
      rfl
    have hlow : ∀ x : Slot, x < c1.next → liftSlot c1.next (0 + 1) x = x := fun x hx => if_pos hx
    have f3 : c2.binds = c1.binds ++ [('$' :: name, ⟨c1.next, c1.regular⟩), ('$' :: name, ⟨c1.next, c1.regular⟩)] := f3
    have hS2 : Seating (liftSlot c1.next (0 + 1)) (· ≠ '$' :: name) 0 c1.binds c2.binds := by
      refine ⟨fun y hy => ?_, fun h => absurd h (Nat.lt_irrefl _)⟩
      rw [f3, lookupBind_app]
      have e : lookupBind [('$' :: name, (⟨c1.next, c1.regular⟩ : SlotInfo)), ('$' :: name, ⟨c1.next, c1.regular⟩)] y = none := by
        simp only [lookupBind]
        simp [Ne.symm hy]
      rw [e]
      show lookupBind c1.binds y = _
      cases hl : lookupBind c1.binds y with
      | none => rfl
      | some i =>
        have := k1.below _ (lookupBind_mem hl)
        show some i = some (⟨liftSlot c1.next (0 + 1) i.id, i.depth⟩ : SlotInfo)
        rw [hlow _ this]
    have hc2 : Ctx.Seat (liftSlot c1.next (0 + 1)) (· ≠ '$' :: name) 0 False c1.binds c2.binds c1 c2 := by
      refine ⟨⟨[], by simp, by simp [reslotBinds], by simp⟩, f4, f5, f6, fun h => h.elim, ?_, fun n hn => ?_, Nat.zero_le _, k1.below⟩
      · rw [f1]; unfold liftSlot; rw [if_neg (Nat.lt_irrefl _)]; rfl
      · unfold liftSlot
        rw [if_neg (Nat.not_lt.2 hn), if_neg (Nat.not_lt.2 (Nat.le_succ_of_le hn)), Nat.add_right_comm]
    have A : analyseAll src (ss1 ++ .xblock m mo (assignTo name e) :: ss2) (openCtx first g) =
        (analyseAll src ss2 c2 >>= fun r => Pure.pure (a ++ Stmt.xblock m mo (.assign (.many [.var name false none (some c1.next)]) none e) :: r.1, r.2)) := by
      rw [analyseAll_append, e1]
      show (analyseAll src (_ :: ss2) c1 >>= fun r => Pure.pure (a ++ r.1, r.2)) = _
      simp only [analyseAll, analyse_xblock, e3]
      show ((analyseAll src ss2 c2 >>= fun r => Pure.pure (Stmt.xblock m mo (.assign (.many [.var name false none (some c1.next)]) none e) :: r.1, r.2)) >>= _) = _
      cases analyseAll src ss2 c2 <;> rfl
    have B : analyseAll src (ss1 ++ (blankLines m ++ ss2)) (openCtx first g) =
        (analyseAll src ss2 c1 >>= fun r => Pure.pure (a ++ (blankLines m ++ r.1), r.2)) := by
      rw [analyseAll_append, e1]
      show (analyseAll src (blankLines m ++ ss2) c1 >>= fun r => Pure.pure (a ++ r.1, r.2)) = _
      rw [analyseAll_blank]
      cases analyseAll src ss2 c1 <;> rfl
    rw [A, B]
    rcases analyseAll_seated (src := src) hS2 ss2 _ _ hc2 hu ht2 (.inr hx) (fun _ _ _ h => absurd h (Nat.lt_irrefl _)) with
      ⟨e, g1, g2⟩ | ⟨c, c3, c3', g1, g2, g3, g4, g5⟩
    · rw [g1, g2]; exact .inl ⟨e, rfl, rfl⟩
    · rw [g1, g2]
      obtain ⟨o2, b3, b3', _⟩ := g3.binds
      refine .inr ⟨c1.next, 0, c3.next, a, [.xblock m mo (.assign (.many [.var name false none (some c1.next)]) none e)], c, o1,
        [('$' :: name, ⟨c1.next, c1.regular⟩), ('$' :: name, ⟨c1.next, c1.regular⟩)], o2,
        ⟨n1.1, g4.1, q1, g5, ⟨_, rfl, assign_silent m mo name c1.next he⟩, by simp, ?_, fun x hx => ?_, fun x hx => ?_⟩, ?_, ?_⟩
      · intro x hx
        simp only [Stmt.defsAll, Stmt.defs, List.append_nil] at hx
        cases hx
      · exact k1.below x (by rw [b1]; exact List.mem_append_right _ hx)
      · exact g3.below x (by rw [b3]; exact List.mem_append_right _ hx)
      · show Except.ok _ = Except.ok _
        congr 2
        · simp
        · unfold exportsOf
          have : c3'.binds.drop g.length = o1 ++ [('$' :: name, ⟨c1.next, c1.regular⟩), ('$' :: name, ⟨c1.next, c1.regular⟩)] ++
              reslotBinds (liftSlot c1.next (0 + 1)) o2 := by
            rw [b3', f3, b1, List.append_assoc, List.append_assoc, List.append_assoc, ← seats_length g first, List.drop_left]
          rw [this]
      · show Except.ok _ = Except.ok _
        congr 2
        · simp
        · unfold exportsOf
          rw [b3, b1, List.append_assoc, ← seats_length g first, List.drop_left]

/-- A variable that is set to a constant between blocks of a script, and that is not mentioned below; it is new: it is neither a global one nor
assigned above. Without the assignment -- only the blank lines above it stay -- the same faults are found; when there is none, the same
nodes are made, with the same contents, or the same exception is raised, whatever python does, and the same symbols are exported with the same values,
except for the variable itself. -/
theorem C125_document (hg : ∀ x ∈ g, validSymbol x.1 = true) {m : Str} {mo : Option Modifier} {name : Str} {e : Expr} (he : Constant e)
    (hm : Stmt.MadeDocument mk U (ss1 ++ .xblock m mo (assignTo name e) :: ss2))
    (hu : Stmt.onlyNamesAll src (· ≠ '$' :: name) ss2) (hx : Stmt.noContextAll ss2) (first : Slot) {doc0 : Document P}
    (h0 : analyseDocument src first g ss1 = .ok doc0) (hnew : '$' :: name ∉ doc0.slotsOut.map Prod.fst) (hglob : '$' :: name ∉ g.map Prod.fst) :
    (∀ e', analyseDocument src first g (ss1 ++ .xblock m mo (assignTo name e) :: ss2) = .error e' ↔
      analyseDocument src first g (ss1 ++ blankLines m ++ ss2) = .error e') ∧
    ∀ doc, analyseDocument src first g (ss1 ++ .xblock m mo (assignTo name e) :: ss2) = .ok doc →
      ∃ doc', analyseDocument src first g (ss1 ++ blankLines m ++ ss2) = .ok doc' ∧
        ∀ (ops : PyOps P X W) (Γ : DefId → DefInfo P), Enrolled Γ doc → (∀ i, i ∉ (Stmt.defsAll doc.children).map Prod.fst → (Γ i).below first) →
          ∃ Γ' : DefId → DefInfo P, Enrolled Γ' doc' ∧ (∀ i, i ∉ (Stmt.defsAll doc.children).map Prod.fst → Γ' i = Γ i) ∧
            ∀ (k : Nat) (σ : StateId) (M : Machine P W), M.FreshFrom first →
              hideSymbol ('$' :: name) (translDocument (envAt ops Γ' k) σ doc' M).1 = hideSymbol ('$' :: name) (translDocument (envAt ops Γ k) σ doc M).1 ∧
              (translDocument (envAt ops Γ' k) σ doc' M).2.mem = (translDocument (envAt ops Γ k) σ doc M).2.mem := by
  have ht : Stmt.tailsAll Stmt.bare (ss1 ++ .xblock m mo (assignTo name e) :: ss2) := Stmt.MadeAll.tailsOf (fun _ h => h.bare) hm.2
  have hid : validSymbol ('$' :: name) = true := by
    have h1 := (Stmt.madeAll_iff _).1 hm.2 _ (List.mem_append_right ss1 List.mem_cons_self)
    simp only [Stmt.Made, assignTo, Target.Made, Target.MadeAll] at h1
    obtain ⟨c, s, rfl, -⟩ : Ident name := by tauto
    rfl
  rcases var_left_out hg he ht hu hx first h0 hnew hglob hid with ⟨e, k1, k2⟩ | ⟨n, j, N, a, d, c, o1, ob, o2, hL, k1, k2⟩
  · rw [k1, k2]
    exact ⟨fun _ => Iff.rfl, fun doc h => by cases h⟩
  rw [k1, k2]
  refine ⟨fun e => by simp, fun doc h => ?_⟩
  cases h
  exact ⟨_, rfl, fun ops Γ hΓ hother => left_out_same hL ops Γ hΓ hother⟩

end
end

/-! ### Examples -/

namespace UnusedVarEx
open MentionsEx IndependentEx

-- variables that are not used, above and between blocks that use others
example : (text (s!!"$w = 'a b'\n\n| a\n$q = 7\n%H t\n    p | {t}-{x}\n$v = x\n| $v\nH 'b'")).isSome = true ∧
    text (s!!"$w = 'a b'\n\n| a\n$q = 7\n%H t\n    p | {t}-{x}\n$v = x\n| $v\nH 'b'") =
      text (s!!"\n| a\n%H t\n    p | {t}-{x}\n$v = x\n| $v\nH 'b'") := by decide +kernel

/-- `$q = 'ab'`. -/
def assigned : Stmt Toy.Obj := .xblock (s!!"\n") none (assignTo (s!!"q") (.format [.static (s!!"a"), .static (s!!"b")]))

theorem made_all : Stmt.MadeDocument defaultMarks asciiUni (before ++ assigned :: parsed) := by
  have hx : Ident (s!!"x") := ⟨'x', [], rfl, by decide +kernel, by simp⟩
  have hy : Ident (s!!"y") := ⟨'y', [], rfl, by decide +kernel, by simp⟩
  have hz : Ident (s!!"z") := ⟨'z', [], rfl, by decide +kernel, by simp⟩
  have hq : Ident (s!!"q") := ⟨'q', [], rfl, by decide +kernel, by simp⟩
  refine ⟨⟨before ++ assigned :: parsed, [], (List.append_nil _).symm, WellNested.one (by rfl) (WellNested.one (by rfl) (WellNested.one (by rfl)
    (WellNested.one (by rfl) .nil))), by simp, by simp⟩, ?_⟩
  simp [before, assigned, assignTo, parsed, Stmt.MadeAll, Stmt.Made, Stmt.role, Newlines, Target.Made, Target.MadeAll, Expr.Made, Expr.MadeAll, hx, hy, hz, hq]

-- the theorem applies: without the assignment there is no fault, and slots are numbered otherwise
example : ∃ doc', analyseDocument source 0 builtins (before ++ blankLines (s!!"\n") ++ parsed) = .ok doc' ∧ doc'.slotsOut = [(s!!"$z", 3), (s!!"$y", 4)] := by
  obtain ⟨_, h⟩ := C125_document (X := Str) (W := Unit) (src := source) (g := builtins) (by decide +kernel) (.text [s!!"a", s!!"b"]) made_all
    (by simp only [parsed, Stmt.onlyNamesAll, Stmt.onlyNames, Target.onlyNames, Target.onlyNamesAll, Expr.uses]; decide +kernel)
    (by simp [parsed, Stmt.noContextAll, Stmt.noContext]) 0 (doc0 := ⟨fills 0 builtins, _, [(s!!"$z", 3)]⟩) rfl (by decide +kernel) (by decide +kernel)
  obtain ⟨doc', a, _⟩ := h _ rfl
  exact ⟨doc', a, by cases a; rfl⟩

example : (analyseDocument source 0 builtins (before ++ assigned :: parsed)).toOption.map Document.slotsOut =
    some [(s!!"$z", 3), (s!!"$q", 4), (s!!"$y", 5)] := by decide +kernel

-- an expression that is not a constant may raise an exception
example : text (s!!"$q = 1 / 0\n| a") = none ∧ (text (s!!"| a")).isSome = true := by decide +kernel

end UnusedVarEx
end Verif
