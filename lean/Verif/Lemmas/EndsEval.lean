import Verif.Lemmas.Ends

/-! Evaluation of expressions ends. -/

namespace Verif
open Py Spec

/-- The environments for all bounds. -/
abbrev bounded {P X W : Type} (ops : PyOps P X W)
    (ex : Nat → HVal → Val P → List (Val P) → List (Str × Val P) → StateId → Comp P X W (List Ref)) (ca : Nat → Callback P → Comp P X W (Val P))
    (i : Nat) : Env P X W := { ops := ops, expand := ex i, call := ca i, fuel := i }

/-- There is no hypertag in the slot. -/
def NoTag (G : DefId → Slot → Prop) (o : Option Slot) : Prop := ∀ k, o = some k → ∀ id, ¬ G id k

section
variable {P X W α β : Type} {O : Outside P W} {G : DefId → Slot → Prop} {σ : StateId} {ops : PyOps P X W}
  {ex : Nat → HVal → Val P → List (Val P) → List (Str × Val P) → StateId → Comp P X W (List Ref)} {ca : Nat → Callback P → Comp P X W (Val P)}
  (C : O.Calm ops)
include C

local notation "E" => bounded ops ex ca

namespace Halts

theorem ret {n : Nat} {v : Val P} (h : O.Plain n v) : Halts O G σ n O.Plain (fun _ => (Pure.pure v : Comp P X W (Val P))) :=
  .pure (fun _ hm => C.plain h hm)

theorem truthOf {n : Nat} {v : Val P} (h : O.Plain n v) : Halts O G σ n (fun _ _ => True) (fun i => Verif.truthOf (E i) v) := by
  cases h with
  | py h => exact Halts.py C (.truth h)
  | _ => exact .pure (fun _ _ => trivial)

theorem strOf {n : Nat} {v : Val P} (h : O.Plain n v) : Halts O G σ n (fun _ _ => True) (fun i => Verif.strOf (E i) v) := by
  cases v with
  | str s => exact .pure (fun _ _ => trivial)
  | _ => exact Halts.py C (.str h)

theorem STR {n : Nat} {v : Val P} (h : O.Plain n v) : Halts O G σ n (fun _ _ => True) (fun i => Verif.STR (E i) v) := by
  cases v with
  | none => exact .raise _
  | _ => exact Halts.strOf C (ex := ex) (ca := ca) h

theorem binOp {n : Nat} (op : Str) {a b : Val P} (ha : O.Plain n a) (hb : O.Plain n b) : Halts O G σ n O.Plain (fun i => Verif.binOp (E i) op a b) := by
  unfold Verif.binOp
  split
  · exact Halts.ret C (.str _)
  · exact Halts.ret C (.str _)
  · exact Halts.py C (.bin ha hb)

theorem callVal {n : Nat} {f : Val P} (hf : O.Plain n f) : ∀ (args : List (Val P)) (kw : List (Str × Val P)),
    Outside.Plains O n args → Outside.Entries O n kw → Halts O G σ n O.Plain (fun i => Verif.callVal (E i) f args kw) := by
  induction hf with
  | part h1 h2 h3 ih1 ih2 ih3 =>
    intro args kw ha hk
    cases kw with
    | nil =>
      simp only [Verif.callVal]
      refine ih1 _ _ (fun v hv => ?_) h3
      rcases List.mem_append.1 hv with h | h
      · exact ha v h
      · exact h2 v h
    | cons a kw => simp only [Verif.callVal]; exact .raise _
  | none => exact fun args kw ha hk => Halts.py C (.call .none ha hk)
  | bool b => exact fun args kw ha hk => Halts.py C (.call (.bool b) ha hk)
  | str s => exact fun args kw ha hk => Halts.py C (.call (.str s) ha hk)
  | py h => exact fun args kw ha hk => Halts.py C (.call (.py h) ha hk)
  | dom h => exact fun args kw ha hk => Halts.py C (.call (.dom h) ha hk)
  | node h => exact fun args kw ha hk => Halts.py C (.call (.node h) ha hk)

theorem qualCheck {n : Nat} (q : Option Qual) {v : Val P} (h : O.Plain n v) : Halts O G σ n O.Plain (fun i => Verif.qualCheck (E i) q v) := by
  refine (Halts.truthOf C h).bind (fun m b hm _ => .ite (Halts.ret C (C.plain h hm)) ?_)
  cases q with
  | none => exact Halts.ret C (C.plain h hm)
  | some q =>
    cases q with
    | opt => exact Halts.ret C (.str _)
    | obl => exact (Halts.py C (.repr (C.plain h hm))).bind (fun _ _ _ _ => .raise _)

theorem qualified {n : Nat} (q : Option Qual) {c : Nat → Comp P X W (Val P)} (hc : Halts O G σ n O.Plain c) :
    Halts O G σ n O.Plain (fun i => Verif.qualified (E i) q (c i)) := by
  intro M hM hm
  obtain ⟨N, r, M', h1, h2, h3, h4, h5, h6⟩ := hc M hM hm
  cases r with
  | ok a =>
    obtain ⟨N', r', M'', g1, g2, g3, g4, g5, g6⟩ := Halts.qualCheck C (ex := ex) (ca := ca) q (h6 a rfl) M' h3 (Nat.le_refl _)
    refine ⟨max N N', r', M'', fun i hi => ?_, g2, g3, Nat.le_trans h4 g4, h5.trans g5, g6⟩
    show qualStep (E i) q (c i M) = _
    rw [h1 i (by omega)]
    exact g1 i (by omega)
  | raise e =>
    by_cases he : e.ordinary = true ∧ q = some .opt
    · refine ⟨N, .ok (.str []), M', fun i hi => ?_, nofun, h3, h4, h5, fun a ha => ?_⟩
      · show qualStep (E i) q (c i M) = _
        rw [h1 i hi]
        simp only [qualStep, if_pos he]
      · cases ha
        exact .str _
    · refine ⟨N, .raise e, M', fun i hi => ?_, nofun, h3, h4, h5, fun _ hb => nomatch hb⟩
      show qualStep (E i) q (c i M) = _
      rw [h1 i hi]
      simp only [qualStep, if_neg he]
  | timeout => exact absurd rfl h2

theorem readName {n : Nat} {slot : Option Slot} (hq : NoTag G slot) : Halts O G σ n O.Plain (fun _ => (Verif.readName σ slot : Comp P X W _)) := by
  cases slot with
  | none => exact .raise _
  | some sl =>
    refine (Halts.getSlot sl).bind (fun m o hm ho => ?_)
    cases o with
    | none => exact .raise _
    | some v =>
      rcases ho v rfl with hv | ⟨id, _, hg⟩
      · exact Halts.ret C hv
      · exact absurd hg (hq sl rfl id)

theorem negate {n : Nat} {v : Val P} (h : O.Plain n v) : Halts O G σ n O.Plain (fun i => Verif.negate (E i) v) := by
  cases v with
  | none => exact Halts.ret C h
  | _ => exact Halts.py C (.neg h)

omit C in
theorem positional_plain {n : Nat} {names : List (Option Str)} {vs : List (Val P)} (h : Outside.Plains O n vs) :
    Outside.Plains O n (positional names vs) := by
  induction names generalizing vs with
  | nil => simp [positional, Outside.Plains]
  | cons o names ih =>
    cases vs with
    | nil => cases o <;> simp [positional, Outside.Plains]
    | cons v vs =>
      have h1 := ih (vs := vs) (fun w hw => h w (by simp [hw]))
      cases o with
      | none =>
        intro w hw
        rcases List.mem_cons.1 hw with rfl | hw
        · exact h _ (by simp)
        · exact h1 w hw
      | some k => exact h1

omit C in
theorem keywords_plain {n : Nat} {names : List (Option Str)} {vs : List (Val P)} (h : Outside.Plains O n vs) :
    Outside.Entries O n (keywords names vs) := by
  induction names generalizing vs with
  | nil => simp [keywords, Outside.Entries]
  | cons o names ih =>
    cases vs with
    | nil => cases o <;> simp [keywords, Outside.Entries]
    | cons v vs =>
      have h1 := ih (vs := vs) (fun w hw => h w (by simp [hw]))
      cases o with
      | none => exact h1
      | some k =>
        intro w hw
        rcases List.mem_cons.1 hw with rfl | hw
        · exact h v (by simp)
        · exact h1 w hw

omit C in
theorem keywords_dict {n : Nat} {names : List (Option Str)} {vs : List (Val P)} (h : Outside.Plains O n vs) :
    Outside.Entries O n (Dict.update [] (keywords names vs)) := fun a ha =>
  keywords_plain h a ((Dict.mem_update ha).resolve_left (by simp))

omit C in
theorem pairUp_plain {n : Nat} : ∀ {vs : List (Val P)}, Outside.Plains O n vs → ∀ a ∈ pairUp vs, O.Plain n a.1 ∧ O.Plain n a.2
  | [], _ => by simp [pairUp]
  | [_], _ => by simp [pairUp]
  | k :: v :: rest, h => by
    intro a ha
    rw [pairUp] at ha
    rcases List.mem_cons.1 ha with rfl | ha
    · exact ⟨h k (by simp), h v (by simp)⟩
    · exact pairUp_plain (fun w hw => h w (by simp [hw])) a ha

set_option linter.unusedSectionVars false in
theorem cons {n : Nat} {v : Val P} {vs : List (Val P)} (h : O.Plain n v) (hs : Outside.Plains O n vs) : Outside.Plains O n (v :: vs) := by
  intro w hw
  rcases List.mem_cons.1 hw with rfl | hw
  · exact h
  · exact hs w hw

omit C in
theorem wrapTag_plain {n : Nat} {v : Val P} (h : O.Plain n v) : wrapTag σ v = v := by
  cases h <;> rfl

mutual
theorem eval : ∀ (n : Nat) (e : Expr), e.reads (NoTag G) → Halts O G σ n O.Plain (fun i => Verif.eval (E i) σ e)
  | n, .root q e, h => by
    simp only [Verif.eval]; simp only [Expr.reads] at h
    exact Halts.qualified C q (eval n e h)
  | n, .tagUse _ slot, h => by
    simp only [Verif.eval]; simp only [Expr.reads] at h
    exact (Halts.readName C h).bind (fun _ v _ hv => by
      show Halts O G σ _ O.Plain (fun _ => (Pure.pure (wrapTag σ v) : Comp P X W (Val P)))
      rw [wrapTag_plain hv]
      exact Halts.ret C hv)
  | n, .varUse _ slot, h => by
    simp only [Verif.eval]
    exact Halts.readName C h
  | n, .factor atom tail q, h => by
    simp only [Verif.eval]; simp only [Expr.reads] at h
    exact Halts.qualified C q ((eval n atom h.1).bind (fun m v _ hv => applyTails m tail v h.2 hv))
  | n, .chain neg head ops es, h => by
    simp only [Verif.eval]; simp only [Expr.reads] at h
    exact (eval n head h.1).bind (fun _ v _ hv => .ite
      ((Halts.negate C hv).bind (fun m w _ hw => evalChain m ops es w h.2 hw))
      ((Halts.ret C hv).bind (fun m w _ hw => evalChain m ops es w h.2 hw)))
  | n, .concat es, h => by
    simp only [Verif.eval]; simp only [Expr.reads] at h
    exact (evalStrs n es h).bind (fun _ _ _ _ => Halts.ret C (.str _))
  | n, .bits op head es, h => by
    simp only [Verif.eval]; simp only [Expr.reads] at h
    exact (eval n head h.1).bind (fun m v _ hv => evalBits op m es v h.2 hv)
  | n, .pipeline head fs, h => by
    simp only [Verif.eval]; simp only [Expr.reads] at h
    exact (eval n head h.1).bind (fun m v _ hv => evalPipe m fs v h.2 hv)
  | n, .notTest k e, h => by
    simp only [Verif.eval]; simp only [Expr.reads] at h
    exact (eval n e h).bind (fun _ v _ hv => .ite ((Halts.truthOf C hv).bind (fun _ _ _ _ => Halts.ret C (.bool _))) (Halts.ret C hv))
  | n, .andTest head es, h => by
    simp only [Verif.eval]; simp only [Expr.reads] at h
    exact (eval n head h.1).bind (fun m v _ hv => evalAnd m es v h.2 hv)
  | n, .orTest head es, h => by
    simp only [Verif.eval]; simp only [Expr.reads] at h
    exact (eval n head h.1).bind (fun m v _ hv => evalOr m es v h.2 hv)
  | n, .ifElse x t none, h => by
    simp only [Verif.eval]; simp only [Expr.reads] at h
    exact (eval n t h.2.1).bind (fun _ v _ hv => (Halts.truthOf C hv).bind
      (fun m b _ _ => .ite (eval m x h.1) (Halts.ret C (.str _))))
  | n, .ifElse x t (some y), h => by
    simp only [Verif.eval]; simp only [Expr.reads, Expr.readsOpt] at h
    exact (eval n t h.2.1).bind (fun _ v _ hv => (Halts.truthOf C hv).bind
      (fun m b _ _ => .ite (eval m x h.1) (eval m y h.2.2)))
  | n, .list es, h => by
    simp only [Verif.eval]; simp only [Expr.reads] at h
    exact (evalList n es h).bind (fun _ _ _ hv => Halts.py C (.mkList hv))
  | n, .tuple es, h => by
    simp only [Verif.eval]; simp only [Expr.reads] at h
    exact (evalList n es h).bind (fun _ _ _ hv => Halts.py C (.mkTuple hv))
  | n, .set es, h => by
    simp only [Verif.eval]; simp only [Expr.reads] at h
    exact (evalList n es h).bind (fun _ _ _ hv => Halts.py C (.mkSet hv))
  | n, .dict es, h => by
    simp only [Verif.eval]; simp only [Expr.reads] at h
    exact (evalList n es h).bind (fun _ _ _ hv => Halts.py C (.mkDict (pairUp_plain hv)))
  | n, .format es, h => by
    simp only [Verif.eval]; simp only [Expr.reads] at h
    exact (evalStrs n es h).bind (fun _ _ _ _ => Halts.ret C (.str _))
  | n, .static s, _ => by simp only [Verif.eval]; exact Halts.ret C (.str _)
  | n, .strLit s, _ => by simp only [Verif.eval]; exact Halts.ret C (.str _)
  | n, .number t, _ => by simp only [Verif.eval]; exact .pure (fun _ _ => C.plain (C.number t) (Nat.zero_le _))
  | n, .boolean b, _ => by simp only [Verif.eval]; exact Halts.ret C (.bool _)
  | n, .noneLit, _ => by simp only [Verif.eval]; exact Halts.ret C .none
  | n, .sliceNone, _ => by simp only [Verif.eval]; exact Halts.ret C .none
theorem evalList : ∀ (n : Nat) (es : List Expr), Expr.readsAll (NoTag G) es →
    Halts O G σ n (Outside.Plains O) (fun i => Verif.evalList (E i) σ es)
  | n, [], _ => by simp only [Verif.evalList]; exact .pure (fun _ _ => by simp [Outside.Plains])
  | n, e :: es, h => by
    simp only [Verif.evalList]; simp only [Expr.readsAll] at h
    exact (eval n e h.1).bind (fun m v _ hv => (evalList m es h.2).bind
      (fun _ vs hk hs => .pure (fun _ hj => Halts.cons C (C.plain hv (Nat.le_trans hk hj)) (C.plains hs hj))))
theorem evalChain : ∀ (n : Nat) (ops : List Str) (es : List Expr) (v : Val P),
    Expr.readsAll (NoTag G) es → O.Plain n v → Halts O G σ n O.Plain (fun i => Verif.evalChain (E i) σ ops es v)
  | n, [], es, v, _, hv => by simp only [Verif.evalChain]; exact Halts.ret C hv
  | n, op :: ops, [], v, _, hv => by simp only [Verif.evalChain]; exact Halts.ret C hv
  | n, op :: ops, e :: es, v, h, hv => by
    simp only [Verif.evalChain]; simp only [Expr.readsAll] at h
    exact (eval n e h.1).bind (fun _ w hm hw => (Halts.binOp C op (C.plain hv hm) hw).bind
      (fun m r _ hr => evalChain m ops es r h.2 hr))
theorem evalStrs : ∀ (n : Nat) (es : List Expr), Expr.readsAll (NoTag G) es →
    Halts O G σ n (fun _ _ => True) (fun i => Verif.evalStrs (E i) σ es)
  | n, [], _ => by simp only [Verif.evalStrs]; exact .pure (fun _ _ => trivial)
  | n, e :: es, h => by
    simp only [Verif.evalStrs]; simp only [Expr.readsAll] at h
    exact (eval n e h.1).bind (fun _ v _ hv => (Halts.STR C hv).bind (fun m s _ _ => (evalStrs m es h.2).bind
      (fun _ _ _ _ => .pure (fun _ _ => trivial))))
theorem evalBits (op : Str) : ∀ (n : Nat) (es : List Expr) (v : Val P),
    Expr.readsAll (NoTag G) es → O.Plain n v → Halts O G σ n O.Plain (fun i => Verif.evalBits (E i) σ op es v)
  | n, [], v, _, hv => by simp only [Verif.evalBits]; exact Halts.ret C hv
  | n, e :: es, v, h, hv => by
    simp only [Verif.evalBits]; simp only [Expr.readsAll] at h
    exact (eval n e h.1).bind (fun _ w hm hw => (Halts.binOp C op (C.plain hv hm) hw).bind
      (fun m r _ hr => evalBits op m es r h.2 hr))
theorem evalPipe : ∀ (n : Nat) (es : List Expr) (v : Val P), Expr.readsAll (NoTag G) es →
    O.Plain n v → Halts O G σ n O.Plain (fun i => Verif.evalPipe (E i) σ es v)
  | n, [], v, _, hv => by simp only [Verif.evalPipe]; exact Halts.ret C hv
  | n, e :: es, v, h, hv => by
    simp only [Verif.evalPipe]; simp only [Expr.readsAll] at h
    exact (eval n e h.1).bind (fun _ w hm hw => (Halts.callVal C hw [v] []
      (Halts.cons C (C.plain hv hm) (by simp [Outside.Plains])) (by simp [Outside.Entries])).bind
      (fun m r _ hr => evalPipe m es r h.2 hr))
theorem evalAnd : ∀ (n : Nat) (es : List Expr) (v : Val P), Expr.readsAll (NoTag G) es →
    O.Plain n v → Halts O G σ n O.Plain (fun i => Verif.evalAnd (E i) σ es v)
  | n, [], v, _, hv => by simp only [Verif.evalAnd]; exact Halts.ret C hv
  | n, e :: es, v, h, hv => by
    simp only [Verif.evalAnd]; simp only [Expr.readsAll] at h
    exact (Halts.truthOf C hv).bind (fun _ b hm _ => .ite ((Halts.truthOf C (C.plain hv hm)).bind (fun m2 b hm2 _ => .ite
      ((eval m2 e h.1).bind (fun m3 w _ hw => evalAnd m3 es w h.2 hw))
      (evalAnd m2 es v h.2 (C.plain hv (Nat.le_trans hm hm2))))) (Halts.ret C (C.plain hv hm)))
theorem evalOr : ∀ (n : Nat) (es : List Expr) (v : Val P), Expr.readsAll (NoTag G) es →
    O.Plain n v → Halts O G σ n O.Plain (fun i => Verif.evalOr (E i) σ es v)
  | n, [], v, _, hv => by simp only [Verif.evalOr]; exact Halts.ret C hv
  | n, e :: es, v, h, hv => by
    simp only [Verif.evalOr]; simp only [Expr.readsAll] at h
    exact (Halts.truthOf C hv).bind (fun _ b hm _ => .ite (Halts.ret C (C.plain hv hm))
      ((Halts.truthOf C (C.plain hv hm)).bind (fun m2 b hm2 _ => .ite
      (evalOr m2 es v h.2 (C.plain hv (Nat.le_trans hm hm2)))
      ((eval m2 e h.1).bind (fun m3 w _ hw => evalOr m3 es w h.2 hw)))))
theorem applyTails : ∀ (n : Nat) (ts : List Tail) (v : Val P), Tail.readsAll (NoTag G) ts →
    O.Plain n v → Halts O G σ n O.Plain (fun i => Verif.applyTails (E i) σ ts v)
  | n, [], v, _, hv => by simp only [Verif.applyTails]; exact Halts.ret C hv
  | n, t :: ts, v, h, hv => by
    simp only [Verif.applyTails]; simp only [Tail.readsAll] at h
    exact (applyTail n t v h.1 hv).bind (fun m r _ hr => applyTails m ts r h.2 hr)
theorem applyTail : ∀ (n : Nat) (t : Tail) (v : Val P), t.reads (NoTag G) →
    O.Plain n v → Halts O G σ n O.Plain (fun i => Verif.applyTail (E i) σ t v)
  | n, .call names args, f, h, hv => by
    simp only [Verif.applyTail]; simp only [Tail.reads] at h
    exact (evalList n args h).bind (fun _ vs hm hs => Halts.callVal C (C.plain hv hm) _ _ (positional_plain hs) (keywords_dict hs))
  | n, .partialCall names args, f, h, hv => by
    simp only [Verif.applyTail]; simp only [Tail.reads] at h
    exact .ite (Halts.ret C hv) ((evalList n args h).bind (fun _ vs hm hs =>
      Halts.ret C (.part (C.plain hv hm) (positional_plain hs) (keywords_dict hs))))
  | n, .index es, obj, h, hv => by
    simp only [Verif.applyTail]; simp only [Tail.reads] at h
    refine (evalList n es h).bind (fun _ vs hm hs => ?_)
    split
    · exact Halts.py C (.getitem (C.plain hv hm) (hs _ (by simp)))
    · exact Halts.py C (.slice (C.plain hv hm) hs)
  | n, .member name, obj, _, hv => by simp only [Verif.applyTail]; exact Halts.py C (.getattr hv)
end

end Halts
end
end Verif
